{
 "claims": [
  {
   "property": "C01",
   "status": "proved",
   "theorems": [
    "Verif.C01_base64_roundtrip",
    "Verif.C01_base64_format"
   ],
   "note": "Every int64 except INT64_MIN, where negating the value is undefined behaviour in C (the model returns a distinct outcome)."
  },
  {
   "property": "C02",
   "status": "proved",
   "theorems": [
    "Verif.C02_attribs_roundtrip",
    "Verif.C02_attribs_legacy"
   ],
   "note": "All field values in the ranges of their C types; also manifests written by older versions, which have fewer fields."
  },
  {
   "property": "C03",
   "status": "proved",
   "theorems": [
    "Verif.C03_pathcmp_total_order",
    "Verif.C03_pathcmp_lexicographic"
   ],
   "note": "Includes NULL arguments and the lexicographic characterisation."
  },
  {
   "property": "C04",
   "status": "proved",
   "theorems": [
    "Verif.C04_directory_contiguous",
    "Verif.C04_sorted_contiguous",
    "Verif.C04_directory_first"
   ],
   "note": ""
  },
  {
   "property": "C05",
   "status": "partial",
   "theorems": [
    "Verif.C05_entry_order_partial",
    "Verif.C05_entry_order_violated"
   ],
   "note": "Consistent unless one path has both a metadata record and a VSS footer; there the code is not antisymmetric (C05_entry_order_violated)."
  },
  {
   "property": "C06",
   "status": "proved",
   "theorems": [
    "Verif.C06_is_subdir_exact",
    "Verif.C06_is_subdir_value",
    "Verif.C06_is_subdir_null"
   ],
   "note": "Exact characterisation of the match and of the returned depth."
  },
  {
   "property": "C07",
   "status": "proved",
   "theorems": [
    "Verif.C07_has_dot_component",
    "Verif.C07_is_absolute"
   ],
   "note": ""
  },
  {
   "property": "C08",
   "status": "proved",
   "theorems": [
    "Verif.C08_records_roundtrip",
    "Verif.C08_record_format",
    "Verif.C08_too_long_refused",
    "Verif.C08_record_then_anything"
   ],
   "note": "Payloads of 4 GiB and more are outside: the length is cast to unsigned int."
  },
  {
   "property": "C09",
   "status": "proved",
   "theorems": [
    "Verif.C09_manifest_roundtrip",
    "Verif.C09_entries_distinct"
   ],
   "note": ""
  },
  {
   "property": "C10",
   "status": "partial",
   "theorems": [
    "Verif.C10_cut_gives_prefix",
    "Verif.C10_cut_reported_partial",
    "Verif.C10_cut_reported_violated"
   ],
   "note": "Proved: any cut yields exactly the whole entries before it. The ideal that a cut is always reported is false: cuts at a record boundary or just after a record lead look like a clean end (C10_cut_reported_violated); all other cuts are reported."
  },
  {
   "property": "C11",
   "status": "proved",
   "theorems": [
    "Verif.C11_delivery_in_order",
    "Verif.C11_everything_delivered",
    "Verif.C11_fragmentation_irrelevant"
   ],
   "note": "Any sender history, any fragmentation, any interleaving of reads and takes; delivery is in order, error free, and complete after enough reads."
  },
  {
   "property": "C12",
   "status": "partial",
   "theorems": [
    "Verif.C12_read_buffer_bounded",
    "Verif.C12_never_waits_for_ever",
    "Verif.C12_oversized_rejected",
    "Verif.C12_buffer_terminated_violated"
   ],
   "note": "Buffer bounds and rejection of oversized frames proved for any peer. Missing: sscanf is called on the read buffer, which a peer can fill completely without a NUL (C12_buffer_terminated_violated)."
  },
  {
   "property": "C13",
   "status": "partial",
   "theorems": [
    "Verif.C13_sent_in_order",
    "Verif.C13_write_buffer_bounded",
    "Verif.C13_append_all_or_nothing",
    "Verif.C13_accepted_when_drained",
    "Verif.C13_oversized_never_returns",
    "Verif.C13_empty_message_violated"
   ],
   "note": "Order, bounds and all-or-nothing proved for every append/write schedule. Missing: asfd->write reports success for an empty payload without sending it (C13_empty_message_violated) and never returns for one too large for the buffer."
  },
  {
   "property": "C14",
   "status": "proved",
   "theorems": [
    "Verif.C14_no_dot_paths_from_file",
    "Verif.C14_no_dot_paths_from_net",
    "Verif.C14_dot_path_is_error"
   ],
   "note": "Any byte string as file, any message sequence from the network. Link targets are not checked by the code and not part of the claim."
  },
  {
   "property": "C15",
   "status": "proved",
   "theorems": [
    "Verif.C15_each_scanned_once",
    "Verif.C15_each_previous_once",
    "Verif.C15_classification",
    "Verif.C15_walk_meets_hypothesis",
    "Verif.C15_replaced_counted_deleted"
   ],
   "note": "Each scanned and each previous entry recorded exactly once, for all lists; exactly what is recorded, for sorted lists. A file that has to be sent whole although it is in the previous backup (encrypted, or of another kind) counts as new and as deleted (C15_replaced_counted_deleted)."
  },
  {
   "property": "C16",
   "status": "partial",
   "theorems": [
    "Verif.C16_carried_over_iff",
    "Verif.C16_delta_iff",
    "Verif.C16_attributes_iff",
    "Verif.C16_otherwise_whole",
    "Verif.C16_carried_record",
    "Verif.C16_relink_sound",
    "Verif.C16_relink_record_partial",
    "Verif.C16_relink_salt_violated",
    "Verif.C16_relink_compression_violated"
   ],
   "note": "The decision is characterised completely, for all pairs and settings. Missing: an entry that reuses the data of a deleted hard link master takes compression, encryption and salt from the hard link, so an encrypted one cannot be restored (two counterexamples)."
  },
  {
   "property": "C17",
   "status": "partial",
   "theorems": [
    "Verif.C17_merge_loses_nothing",
    "Verif.C17_merge_sorted",
    "Verif.C17_each_path_once_partial",
    "Verif.C17_equal_paths_violated"
   ],
   "note": "Nothing lost or invented for all lists; sorted for sorted lists; each path once when no path is in both lists. With a path in both lists both entries are written (violated)."
  },
  {
   "property": "C18",
   "status": "proved",
   "theorems": [
    "Verif.C18_exactly_deletions_removed",
    "Verif.C18_failures_removed"
   ],
   "note": "Exactly the failed entries are removed, for all manifests and failures, and with the deletions file that any number of interrupted runs leave. A partially written line in the deletions file is not modelled."
  },
  {
   "property": "C19",
   "status": "partial",
   "theorems": [
    "Verif.C19_session_distinct_partial",
    "Verif.C19_until_space_used_partial",
    "Verif.C19_avoids_current",
    "Verif.C19_exhausted_violated",
    "Verif.C19_deleted_reused_violated"
   ],
   "note": "Paths of one backup are pairwise different until all (m+1)^2*65536 are used, for every start and limit, and differ from all files of the previous backup. Violated: when exhausted the error is ignored and paths repeat; a path whose file was deleted from the client is used again although an older backup still has it."
  },
  {
   "property": "C20",
   "status": "partial",
   "theorems": [
    "Verif.C20_resume_above",
    "Verif.C20_resume_no_overwrite",
    "Verif.C20_text_order",
    "Verif.C20_half_received_violated"
   ],
   "note": "After a resume the allocator is above every recorded path and text order equals counter order. Violated: the path of a half received file is handed out again and phase 4 can take the half received file for a relinked one."
  },
  {
   "property": "C21",
   "status": "proved",
   "theorems": [
    "Verif.C21_newest_never_deleted",
    "Verif.C21_only_deletable",
    "Verif.C21_terminates",
    "Verif.C21_no_spurious_error",
    "Verif.C21_delete_request"
   ],
   "note": "Any list of backups, any keep values, any per-deletion outcome (removed, failed before or after the rename)."
  },
  {
   "property": "C22",
   "status": "partial",
   "theorems": [
    "Verif.C22_recent_kept_partial",
    "Verif.C22_k1_most_recent_kept_partial",
    "Verif.C22_k1_most_recent_kept_violated",
    "Verif.C22_old_removed",
    "Verif.C22_keep_values_checked"
   ],
   "note": "Proved when backup numbers have no gaps. The code ages backups by number, so gaps left by manual deletions make it delete one of the k1 most recent (C22_k1_most_recent_kept_violated)."
  },
  {
   "property": "C23",
   "status": "proved",
   "theorems": [
    "Verif.C23_generation_keeps_one",
    "Verif.C23_thinning_complete"
   ],
   "note": ""
  },
  {
   "property": "C24",
   "status": "proved",
   "theorems": [
    "Verif.C24_restore_exact",
    "Verif.C24_every_entry_restores",
    "Verif.C24_backup_completes"
   ],
   "note": "Every history of finished backups and permitted deletions. Assumes that librsync deltas apply (Librsync.Sound, a hypothesis), and that an entry judged unchanged by its times has the content it had before."
  },
  {
   "property": "C25",
   "status": "proved",
   "theorems": [
    "Verif.C25_deletion_harmless",
    "Verif.C25_deletions_harmless",
    "Verif.C25_policy_harmless"
   ],
   "note": "Single deletions, any legal sequence, and whole runs of the retention policy with failures."
  },
  {
   "property": "C26",
   "status": "proved",
   "theorems": [
    "Verif.C26_option",
    "Verif.C26_schedule",
    "Verif.C26_one_in_k1"
   ],
   "note": ""
  },
  {
   "property": "C27",
   "status": "partial",
   "theorems": [
    "Verif.C27_rerun_completes_partial",
    "Verif.C27_previous_untouched_partial",
    "Verif.C27_mixed_compression_violated",
    "Verif.C27_mixed_compression_archive_violated",
    "Verif.C27_copy_interrupted_violated",
    "Verif.C27_link_limit_violated"
   ],
   "note": "Proved for any number of power cuts, provided that the limit on hard links is not reached and that the entries with deltas are all compressed or all not compressed. Without the provisos the code does not have the property: four proved counterexamples (an `inflate` file left behind as a hard link to an old file is opened for writing; an interrupted copy is taken to be complete; a file is copied onto its own inode)."
  },
  {
   "property": "C28",
   "status": "partial",
   "theorems": [
    "Verif.C28_current_after_recovery_partial",
    "Verif.C28_nothing_lost_partial",
    "Verif.C28_recovered_in_place_partial",
    "Verif.C28_leftover_resumable_partial",
    "Verif.C28_only_backup_deleted_violated",
    "Verif.C28_delete_beside_interrupted_violated"
   ],
   "note": "Proved for every sequence of jobs (new backup, resumed backup, deletion, recovery), each cut off at any operation: the recovery goes through, current then names the newest complete backup, and no complete backup is lost unless deleted. Left out are two cuts in the middle of a deletion, for which the claim is false: C28_only_backup_deleted_violated and C28_delete_beside_interrupted_violated show that they leave a client stuck for ever."
  },
  {
   "property": "C29",
   "status": "partial",
   "theorems": [
    "Verif.C29_resume_iff_partial",
    "Verif.C29_delete_iff_partial",
    "Verif.C29_incomplete_scan_deleted",
    "Verif.C29_attempts_bounded",
    "Verif.C29_settings_violated",
    "Verif.C29_log_repaired_second_time"
   ],
   "note": "Which leftover is resumed, deleted or kept is characterised completely, for all leftovers and settings, with the comparison of settings as the code does it; attempts are bounded by the limit for every sequence of interruptions. Missing: C29_settings_violated: settings that have been emptied, or cut off at a multiple of 4096 bytes, count as the same, so the backup is resumed with the old settings."
  },
  {
   "property": "C30",
   "status": "partial",
   "theorems": [
    "Verif.C30_resume_complete_partial",
    "Verif.C30_nothing_repeated_partial",
    "Verif.C30_received_kept",
    "Verif.C30_kept_entire",
    "Verif.C30_lost_unchanged_violated"
   ],
   "note": "Proved for all sorted scans and previous manifests, every interruption point and any number of interruptions, provided that what was written is on the disc (the lists are then prefixes that belong together). Without that the code does not have the property: C30_lost_unchanged_violated (the two lists are buffered separately, and resuming looks at one of them only). The counters are in C107."
  },
  {
   "property": "C31",
   "status": "proved",
   "theorems": [
    "Verif.C31_directories_last",
    "Verif.C31_once"
   ],
   "note": "Order of directories, and that everything asked for is sent once."
  },
  {
   "property": "C32",
   "status": "partial",
   "theorems": [
    "Verif.C32_latest",
    "Verif.C32_all",
    "Verif.C32_number",
    "Verif.C32_timestamp",
    "Verif.C32_none",
    "Verif.C32_junk_violated",
    "Verif.C32_other_time_violated",
    "Verif.C32_failure_lost_violated"
   ],
   "note": "Proved: by number, by time stamp, all, and the most recent. Violated: a request that is no number gets the most recent backup; the time in a time stamp is not looked at; a failed restore is not reported in the result."
  },
  {
   "property": "C33",
   "status": "partial",
   "theorems": [
    "Verif.C33_selection",
    "Verif.C33_error_violated",
    "Verif.C33_server_partial",
    "Verif.C33_server_violated"
   ],
   "note": "Proved for restore lists that can be read. Violated: a restore list that ends with a read error selects everything after it; directories in the server's restore file match by prefix, without regard to separators."
  },
  {
   "property": "C34",
   "status": "proved",
   "theorems": [
    "Verif.C34_quota"
   ],
   "note": "For all scans and quotas, with the sum of sizes below 2^64."
  },
  {
   "property": "C35",
   "status": "proved",
   "theorems": [
    "Verif.C35_time_band",
    "Verif.C35_always",
    "Verif.C35_interval",
    "Verif.C35_run_iff"
   ],
   "note": "For all inputs; time bands and intervals as the documentation describes them are covered by C35_time_band, C35_always and C35_interval. strftime and strptime are not modelled."
  },
  {
   "property": "C36",
   "status": "partial",
   "theorems": [
    "Verif.C36_authorised_partial",
    "Verif.C36_right_password_accepted",
    "Verif.C36_client_name",
    "Verif.C36_crypt_failure_violated"
   ],
   "note": "Proved if the hash function can be used with the configured hash. Otherwise false: C36_crypt_failure_violated (every password is accepted when crypt fails or is missing)."
  },
  {
   "property": "C37",
   "status": "proved",
   "theorems": [
    "Verif.C37_allowed",
    "Verif.C37_bad_entry"
   ],
   "note": "inet_pton is a parameter. As in the code, text after the number of a prefix is ignored and a prefix of -1 stands for all bits."
  },
  {
   "property": "C38",
   "status": "proved",
   "theorems": [
    "Verif.C38_add_uniq",
    "Verif.C38_history_uniq",
    "Verif.C38_add_sorted",
    "Verif.C38_add_unsorted",
    "Verif.C38_find"
   ],
   "note": ""
  },
  {
   "property": "C39",
   "status": "partial",
   "theorems": [
    "Verif.C39_granted_iff",
    "Verif.C39_permissions",
    "Verif.C39_no_escalation",
    "Verif.C39_listed_partial",
    "Verif.C39_chain_violated"
   ],
   "note": "Permissions: proved for any sequence of requests. That the target lists the client: proved for one request (C39_granted_iff). False for sequences: C39_chain_violated."
  },
  {
   "property": "C40",
   "status": "partial",
   "theorems": [
    "Verif.C40_name_partial",
    "Verif.C40_name_iff",
    "Verif.C40_empty_name_violated"
   ],
   "note": "Proved for every name but the empty one, for which the check reads before the string (C40_empty_name_violated)."
  },
  {
   "property": "C41",
   "status": "partial",
   "theorems": [
    "Verif.C41_longest_partial",
    "Verif.C41_no_directory_violated",
    "Verif.C41_included_partial",
    "Verif.C41_configured_partial"
   ],
   "note": "Proved for every path that lies under some configured directory, and for the list of rules that any configuration is turned into. When no configured directory contains the path it counts as included (C41_no_directory_violated)."
  },
  {
   "property": "C42",
   "status": "proved",
   "theorems": [
    "Verif.C42_start_dirs"
   ],
   "note": "For all configurations that are accepted."
  },
  {
   "property": "C43",
   "status": "proved",
   "theorems": [
    "Verif.C43_exact",
    "Verif.C43_same",
    "Verif.C43_ordered",
    "Verif.C43_backups",
    "Verif.C43_backups_found",
    "Verif.C43_text_partial",
    "Verif.C43_text_violated",
    "Verif.C43_other_changes"
   ],
   "note": "Exactness for all strictly sorted manifests without clashing kinds of record (see C05); order of the report; choice of the two backups. C43_text_violated: paths that do not start with a slash are shown with one."
  },
  {
   "property": "C44",
   "status": "proved",
   "theorems": [
    "Verif.C44_children",
    "Verif.C44_parents_are_directories",
    "Verif.C44_regex",
    "Verif.C44_all",
    "Verif.C44_not_found",
    "Verif.C44_trailing_slash",
    "Verif.C44_doubled_slash_violated"
   ],
   "note": "For all manifests in path order whose paths have no doubled slash and no '.' component; C44_doubled_slash_violated shows that the first is needed. Regular expressions are a parameter."
  },
  {
   "property": "C45",
   "status": "partial",
   "theorems": [
    "Verif.C45_content",
    "Verif.C45_view",
    "Verif.C45_max_links",
    "Verif.C45_deletion",
    "Verif.C45_dry_run",
    "Verif.C45_skips",
    "Verif.C45_read_error_violated"
   ],
   "note": "Content, links and deletions proved at every moment of a run for any checksums, failures of link, rename and unlink included, if what can be opened can be read to its end. A read error taken for the end of a file is shown to lose content. Changes made by other programs during the run are not modelled."
  },
  {
   "property": "C46",
   "status": "proved",
   "theorems": [
    "Verif.C46_scan",
    "Verif.C46_target_sent"
   ],
   "note": "For all scans. Linux: a device and inode number name a file."
  },
  {
   "property": "C47",
   "status": "partial",
   "theorems": [
    "Verif.C47_counts",
    "Verif.C47_totals",
    "Verif.C47_scanned",
    "Verif.C47_file_changed_violated",
    "Verif.C47_bytes",
    "Verif.C47_deleted_row_violated",
    "Verif.C47_printed",
    "Verif.C47_stats",
    "Verif.C47_warnings"
   ],
   "note": "Proved for all histories of the calls the server makes: rows, totals, statistics file, and all columns of the printed table except deletions. C47_file_changed_violated: on the client a changed file is counted twice in the grand total. C47_deleted_row_violated: the printed table has no row for a kind with only deletions."
  },
  {
   "property": "C48",
   "status": "partial",
   "theorems": [
    "Verif.C48_exact",
    "Verif.C48_only_first",
    "Verif.C48_truncated_partial",
    "Verif.C48_truncated_violated",
    "Verif.C48_dump",
    "Verif.C48_dump_truncated",
    "Verif.C48_pieces_partial",
    "Verif.C48_cut_at_header_violated",
    "Verif.C48_cut_at_header_fails",
    "Verif.C48_write_error_violated"
   ],
   "note": "Exact for streams that end properly (C48_exact, C48_dump, C48_only_first). Violated for truncated streams, which are reported as success, for pieces cut exactly behind a header, and for write errors (C48_truncated_violated, C48_cut_at_header_violated, C48_write_error_violated). C48_pieces_partial: independent of how the data is cut, if no piece ends at a header."
  },
  {
   "property": "C49",
   "status": "partial",
   "theorems": [
    "Verif.C49_names_partial",
    "Verif.C49_fresh_partial",
    "Verif.C49_owners_partial",
    "Verif.C49_modes_partial",
    "Verif.C49_dotdot_violated",
    "Verif.C49_chmod_violated",
    "Verif.C49_acl_violated",
    "Verif.C49_hard_link_violated",
    "Verif.C49_in_place_violated",
    "Verif.C49_metadata_violated",
    "Verif.C49_socket_violated"
   ],
   "note": "For every sequence of entries and every file system with links, nothing outside the restore directory is made, removed or written to (C49_names_partial), data only go to files made by the restore, owners and modes stay inside under stated conditions. Excluded, with a witness for each: paths that end with '..' (owner and mode of the directory above change), modes and access control lists set through links, hard links to files outside, data written in place into such a file, metadata of directories with '..' in the path (directories made anywhere), sockets in long directories (path cut at 107 bytes). Races with other processes and Windows are not modelled."
  },
  {
   "property": "C50",
   "status": "partial",
   "theorems": [
    "Verif.C50_discard",
    "Verif.C50_in_step",
    "Verif.C50_complete",
    "Verif.C50_ends",
    "Verif.C50_same_datapth_violated",
    "Verif.C50_read_error_violated",
    "Verif.C50_backup_partial",
    "Verif.C50_senders",
    "Verif.C50_backup_read_error_violated",
    "Verif.C50_signature",
    "Verif.C50_delta_read_error_violated"
   ],
   "note": "Restore: client and server as concurrent processes with ordered channels; in every run the client keeps in step, the run ends, and every wanted file is complete (C50_discard, C50_in_step, C50_complete, C50_ends). Backup: the server saves exactly the files sent whole (C50_backup_partial, C50_senders, C50_signature). Missing because false in the code: two files sharing a data path, read errors half way (C50_*_violated)."
  },
  {
   "property": "C51",
   "status": "partial",
   "theorems": [
    "Verif.C51_value_partial",
    "Verif.C51_misplaced_violated",
    "Verif.C51_single_violated",
    "Verif.C51_ext",
    "Verif.C51_path",
    "Verif.C51_name",
    "Verif.C51_size",
    "Verif.C51_excluded",
    "Verif.C51_manual_violated",
    "Verif.C51_short_group_violated",
    "Verif.C51_double_not_violated"
   ],
   "note": "Proved for expressions of unbounded size and any layout, with the tests given their meaning; what is asked for (not a single test, groups within groups of two items or more, where outermost groups may stand) is shown to be needed: single tests are ignored, misplaced groups (as in the manual's own example) always lead to the use of freed memory."
  },
  {
   "property": "C52",
   "status": "proved",
   "theorems": [
    "Verif.C52_quoted",
    "Verif.C52_unquoted",
    "Verif.C52_reset",
    "Verif.C52_blank",
    "Verif.C52_no_equals",
    "Verif.C52_outside_violated"
   ],
   "note": "Quoted values with any content, unquoted values, the reset mark, blank lines and comments. C52_outside_violated records two kinds of malformed line for which the code reads outside the line."
  },
  {
   "property": "C53",
   "status": "proved",
   "theorems": [
    "Verif.C53_components",
    "Verif.C53_text",
    "Verif.C53_empty",
    "Verif.C53_plain",
    "Verif.C53_separators_violated"
   ],
   "note": "The text has a doubled or a lost separator in two cases (C53_separators_violated), which does not change what the path names."
  },
  {
   "property": "C54",
   "status": "partial",
   "theorems": [
    "Verif.C54_exclusive_partial",
    "Verif.C54_free_again",
    "Verif.C54_race_violated",
    "Verif.C54_test_refuses_violated",
    "Verif.C54_locked_out",
    "Verif.C54_lock_first"
   ],
   "note": "Mutual exclusion proved for any number of processes and all interleavings, deaths included, in which no release begins between another's open and lock; the race otherwise is shown. That a process without the lock changes nothing, and that the lock is taken first, are proved for all requests."
  },
  {
   "property": "C55",
   "status": "proved",
   "theorems": [
    "Verif.C55_permission",
    "Verif.C55_as_asked",
    "Verif.C55_unknown",
    "Verif.C55_old_delete",
    "Verif.C55_list_done",
    "Verif.C55_refused_delete_recovers_violated"
   ],
   "note": "All requests, settings and circumstances. Also shown: a refused deletion has the recovery done first."
  },
  {
   "property": "C56",
   "status": "partial",
   "theorems": [
    "Verif.C56_number_increases_partial",
    "Verif.C56_listed_oldest_first_partial",
    "Verif.C56_ages_partial",
    "Verif.C56_ten_million_violated"
   ],
   "note": "Proved for all histories with numbers below ten million: numbers grow, the list is oldest first, the ages are those of the history. C56_ten_million_violated: from the ten millionth backup on, the name has eight digits, sorts before the others and the list is out of order. Also get_new_bno reports an error as -1 in an unsigned number, which its caller cannot see."
  },
  {
   "property": "C57",
   "status": "partial",
   "theorems": [
    "Verif.C57_intact",
    "Verif.C57_stored",
    "Verif.C57_end_marker",
    "Verif.C57_reported",
    "Verif.C57_accepted",
    "Verif.C57_accepted_encrypted",
    "Verif.C57_truncated_violated",
    "Verif.C57_short_write_violated",
    "Verif.C57_receive_a_file_violated",
    "Verif.C57_read_error_violated"
   ],
   "note": "zlib, the cipher and the digest are parameters with stated faithfulness hypotheses. Round trip, end marker and error reporting proved; violated: a stream that stops early is accepted, short writes are taken for success, receive_a_file, read error of an uncompressed file (C57_*_violated)."
  },
  {
   "property": "C58",
   "status": "partial",
   "theorems": [
    "Verif.C58_digest",
    "Verif.C58_corruption_partial",
    "Verif.C58_intact_passes",
    "Verif.C58_told",
    "Verif.C58_length_violated",
    "Verif.C58_counted_violated",
    "Verif.C58_crash_violated"
   ],
   "note": "Verification reports exactly files whose digest differs (C58_digest, C58_corruption_partial, C58_intact_passes, C58_told). Missing because false in the code: the length is not compared, failures are counted as verified, an entry without end marker dereferences a null pointer (C58_*_violated)."
  },
  {
   "property": "C59",
   "status": "partial",
   "theorems": [
    "Verif.C59_path",
    "Verif.C59_relocated",
    "Verif.C59_order",
    "Verif.C59_data",
    "Verif.C59_numbered",
    "Verif.C59_manifest_partial",
    "Verif.C59_not_seeded",
    "Verif.C59_hardlink_violated",
    "Verif.C59_outside_violated",
    "Verif.C59_start_dirs",
    "Verif.C59_setup",
    "Verif.C59_both"
   ],
   "note": "Proved: rewriting of paths and data paths, order, agreement with the renamed data directory, settings. Violated: hard link targets are not rewritten; the server does not check that a path is in the source directory (mangled, or read beyond the end)."
  },
  {
   "property": "C60",
   "status": "partial",
   "theorems": [
    "Verif.C60_size_partial",
    "Verif.C60_unknown_suffix",
    "Verif.C60_overflow_violated",
    "Verif.C60_logic_violated"
   ],
   "note": "Proved for sizes below 2^64. Larger ones wrap round (C60_overflow_violated)."
  },
  {
   "property": "C61",
   "status": "proved",
   "theorems": [
    "Verif.C61_include_ext",
    "Verif.C61_exclude_ext",
    "Verif.C61_exclude_comp"
   ],
   "note": "An extension that itself contains a dot never matches."
  },
  {
   "property": "C62",
   "status": "partial",
   "theorems": [
    "Verif.C62_scan_partial",
    "Verif.C62_nested_violated"
   ],
   "note": "Proved for all trees and configurations in which no included directory that contains another one lies beneath something left out. Without that C62_nested_violated: a file is visited twice. File systems that are left out, nobackup and unreadable directories are taken as empty directories."
  },
  {
   "property": "C63",
   "status": "proved",
   "theorems": [
    "Verif.C63_size_limits"
   ],
   "note": ""
  },
  {
   "property": "C64",
   "status": "partial",
   "theorems": [
    "Verif.C64_hardlink_partial",
    "Verif.C64_header_violated"
   ],
   "note": "Proved for files whose first record is the data. Violated for files with a VSS header, of which only the header is sent; the metadata records of the target are never sent."
  },
  {
   "property": "C65",
   "status": "partial",
   "theorems": [
    "Verif.C65_daemon_violated",
    "Verif.C65_exclusive_partial"
   ],
   "note": "Same model as C54; a server in the background does not hold its lock, which is shown."
  },
  {
   "property": "C66",
   "status": "partial",
   "theorems": [
    "Verif.C66_fits",
    "Verif.C66_round_trip_partial",
    "Verif.C66_tab_violated",
    "Verif.C66_status",
    "Verif.C66_working"
   ],
   "note": "The process, backup and status arrive for any path; counters and path (cut to 257 bytes) arrive when name and path have no tab or newline. C66_tab_violated: the rest of a path after a tab is read as a counter."
  },
  {
   "property": "C67",
   "status": "partial",
   "theorems": [
    "Verif.C67_strip",
    "Verif.C67_left_out",
    "Verif.C67_absolute_partial",
    "Verif.C67_first_violated",
    "Verif.C67_from"
   ],
   "note": "C67_strip, C67_left_out and C67_from are for all paths. The slash of an absolute path counts as a component, so one name less than asked for is taken off: C67_absolute_partial and C67_first_violated."
  },
  {
   "property": "C68",
   "status": "partial",
   "theorems": [
    "Verif.C68_kept_partial",
    "Verif.C68_data_partial",
    "Verif.C68_fifo_violated",
    "Verif.C68_link_violated"
   ],
   "note": "For entries as a backup has them, on every file system. Data of a fifo replace what is there (C68_fifo_violated), and a server can send links or files with the mode of a directory, which are not checked (C68_link_violated, C49_in_place_violated). Sockets and metadata of directories with '..' in the path are excluded as in C49."
  },
  {
   "property": "C69",
   "status": "proved",
   "theorems": [
    "Verif.Session.C69_restores_what_was_there",
    "Verif.Session.C69_nothing_missing",
    "Verif.Session.C69_manifests_in_order",
    "Verif.Session.C69_completes",
    "Verif.Session.C69_allocator_is_good"
   ],
   "note": "For all histories of whole backups and deletions. Asked for: librsync patches reproduce what the delta was made from, scans are in order, contents do not change without the times changing, hard links that become files are not encrypted (C16_relink_salt_violated shows that this is needed), and data paths are fresh (C69_allocator_is_good shows that the allocator's are). Interrupted backups are C26 and C27, errors of reading and writing on the server are not modelled."
  },
  {
   "property": "C70",
   "status": "partial",
   "theorems": [
    "Verif.C70_served_partial",
    "Verif.C70_revoked",
    "Verif.C70_signed",
    "Verif.C70_not_signed",
    "Verif.C70_never_replaced_partial",
    "Verif.C70_one_per_name_partial",
    "Verif.C70_serials",
    "Verif.C70_subject_violated",
    "Verif.C70_nul_violated",
    "Verif.C70_race_violated"
   ],
   "note": "Who is served (C70_served_partial) is an equivalence for common names without NUL bytes and files that can be read; TLS verification is a parameter. Certificates are never replaced and at most one is signed for each name if connections come one after the other. The name in a request is not compared with that of the client (C70_subject_violated), NUL bytes end a name (C70_nul_violated), and connections at the same time can remove each other's files (C70_race_violated)."
  },
  {
   "property": "C71",
   "status": "partial",
   "theorems": [
    "Verif.C71_value",
    "Verif.C71_order_partial",
    "Verif.C71_malformed",
    "Verif.C71_hundred_violated",
    "Verif.C71_text_violated"
   ],
   "note": "For numbers below 100 in the second and third place; C71_hundred_violated shows that this is needed."
  },
  {
   "property": "C72",
   "status": "partial",
   "theorems": [
    "Verif.C72_children_partial",
    "Verif.C72_room",
    "Verif.C72_backups_partial",
    "Verif.C72_reload_violated",
    "Verif.C72_parallel_violated"
   ],
   "note": "The limit on clients holds, and is exact, until the configuration is reloaded (C72_reload_violated). The limit on parallel backups holds if clients do not connect while others are deciding (C72_parallel_violated)."
  },
  {
   "property": "C73",
   "status": "partial",
   "theorems": [
    "Verif.C73_client_value",
    "Verif.C73_own_value",
    "Verif.C73_name",
    "Verif.C73_client_list",
    "Verif.C73_restore_clients",
    "Verif.C73_server_script",
    "Verif.C73_global",
    "Verif.C73_notify_violated",
    "Verif.C73_twice_violated",
    "Verif.C73_reset_violated",
    "Verif.C73_yes_violated",
    "Verif.C73_unknown_violated",
    "Verif.C73_file_value",
    "Verif.C73_file_list",
    "Verif.C73_ports",
    "Verif.C73_listen",
    "Verif.C73_client_scripts"
   ],
   "note": "For all files and all settings, apart from the includes and the directories that are worked out from them; also for each side's own file, for ports and listening addresses, and for scripts. It fails for server_script_notify (C73_notify_violated), for lists on the command line without := (C73_twice_violated), for := on restore clients (C73_reset_violated), and what a text means is not what one expects for words (C73_yes_violated) and unknown names (C73_unknown_violated)."
  },
  {
   "property": "C74",
   "status": "partial",
   "theorems": [
    "Verif.C74_restore_refused",
    "Verif.C74_includes_refused",
    "Verif.C74_prefix",
    "Verif.C74_script_violated",
    "Verif.C74_rights_violated"
   ],
   "note": "What is refused is refused for all messages, and a restore stays below the client's prefix. That a server can change only what is included and excluded holds for what burp's server sends (C75), but not for all messages (C74_script_violated, C74_rights_violated)."
  },
  {
   "property": "C75",
   "status": "partial",
   "theorems": [
    "Verif.C75_includes",
    "Verif.C75_restore",
    "Verif.C75_own_excludes_violated",
    "Verif.C75_include_excluded_violated",
    "Verif.C75_spaces_violated",
    "Verif.C75_quotes_violated"
   ],
   "note": "For all settings whose texts can stand in a file without quotes (C75_spaces_violated and C75_quotes_violated show that this is needed), and all of them apart from cross_filesystem and the directories that are worked out from the includes. These are not: C75_own_excludes_violated and C75_include_excluded_violated."
  },
  {
   "property": "C76",
   "status": "partial",
   "theorems": [
    "Verif.C76_agree",
    "Verif.C76_finite",
    "Verif.C76_succeeds_iff",
    "Verif.C76_any_hash",
    "Verif.C76_any_end",
    "Verif.C76_any_connected",
    "Verif.C76_any_rights",
    "Verif.C76_refused_violated"
   ],
   "note": "For clients of version 2.0.46 and later, without upgrades over the connection. The end is the same in all schedules. C76_refused_violated: if the server's own settings have only one end of a seed, the client is told that all is well although the server has given up."
  },
  {
   "property": "C77",
   "status": "partial",
   "theorems": [
    "Verif.C77_asked_partial",
    "Verif.C77_number",
    "Verif.C77_latest",
    "Verif.C77_all",
    "Verif.C77_diff",
    "Verif.C77_list_names",
    "Verif.C77_list_contents",
    "Verif.C77_list_number",
    "Verif.C77_list_current",
    "Verif.C77_delete",
    "Verif.C77_stamp_violated",
    "Verif.C77_long_violated",
    "Verif.C77_junk_violated"
   ],
   "note": "For backups that are named without a colon and requests that fit into 512 bytes (128 to delete), and when the server does not fail for other reasons. C77_stamp_violated: time stamps have colons in them and cannot be used. C77_long_violated: a longer request is cut off. C77_junk_violated: junk restores the most recent backup."
  },
  {
   "property": "C78",
   "status": "partial",
   "theorems": [
    "Verif.C78_zero_partial",
    "Verif.C78_zero_conv",
    "Verif.C78_order",
    "Verif.C78_asked",
    "Verif.C78_pre",
    "Verif.C78_post",
    "Verif.C78_codes",
    "Verif.C78_level",
    "Verif.C78_reconnect",
    "Verif.C78_servers",
    "Verif.C78_contacts",
    "Verif.C78_exit_partial",
    "Verif.C78_setup_violated",
    "Verif.C78_resume_violated",
    "Verif.C78_again_violated",
    "Verif.C78_unrun_violated",
    "Verif.C78_args_violated"
   ],
   "note": "Of scanning, sending, restoring and so on only the result is in this model. Memory for the connection is assumed in C78_zero_partial and C78_exit_partial; C78_setup_violated: without it exit code 0 is given although nothing was done. See also C78_resume_violated, C78_again_violated, C78_unrun_violated and C78_args_violated."
  },
  {
   "property": "C79",
   "status": "partial",
   "theorems": [
    "Verif.C79_request",
    "Verif.C79_overview",
    "Verif.C79_private_partial",
    "Verif.C79_named",
    "Verif.C79_log",
    "Verif.C79_named_violated",
    "Verif.C79_colon_violated",
    "Verif.C79_crash_violated",
    "Verif.C79_global_violated",
    "Verif.C79_included_violated",
    "Verif.C79_regranted_violated",
    "Verif.C79_backups",
    "Verif.C79_answered",
    "Verif.C79_running",
    "Verif.C79_counters"
   ],
   "note": "For names without a colon, peers later than 2.1.8, and files whose times change when they do. That nothing at all is told of other clients is missing in C79_private_partial, because a client that is asked for by name is shown without its backups (C79_named_violated). See also C79_colon_violated, C79_crash_violated, C79_global_violated, C79_included_violated and C79_regranted_violated."
  },
  {
   "property": "C80",
   "status": "partial",
   "theorems": [
    "Verif.C80_listing",
    "Verif.C80_file_partial",
    "Verif.C80_top",
    "Verif.C80_all",
    "Verif.C80_remembered_partial",
    "Verif.C80_same_names",
    "Verif.C80_kinds",
    "Verif.C80_absent_violated",
    "Verif.C80_mode_violated",
    "Verif.C80_included_violated",
    "Verif.C80_stale_violated",
    "Verif.C80_root_violated"
   ],
   "note": "For manifests in burp's order and directories that hold something of the backup. C80_file_partial: the directories on the way to a file have to be in the backup as well (C80_mode_violated, C80_included_violated). C80_remembered_partial: the manifest of a number has to stay the same (C80_stale_violated). C80_absent_violated: names that are not there are passed over. C80_root_violated: / has the attributes of the first record."
  },
  {
   "property": "C81",
   "status": "partial",
   "theorems": [
    "Verif.C81_kept",
    "Verif.C81_all_set",
    "Verif.C81_restored",
    "Verif.C81_noticed",
    "Verif.C81_cut",
    "Verif.C81_unknown",
    "Verif.C81_bsd_partial",
    "Verif.C81_settings_violated",
    "Verif.C81_stop_violated",
    "Verif.C81_inherit_violated",
    "Verif.C81_dir_stale_violated",
    "Verif.C81_bsd_violated"
   ],
   "note": "Proved for Linux, for what can be read and fits into 2 GB. C81_bsd_partial: FreeBSD, for values that are no longer than the list of names (C81_bsd_violated). C81_settings_violated: the settings acl and xattr are not independent. C81_stop_violated: one attribute that is refused stops the others. C81_inherit_violated: files in a directory with a default control list get it. C81_dir_stale_violated: a directory that is there keeps what it has."
  },
  {
   "property": "C82",
   "status": "partial",
   "theorems": [
    "Verif.C82_upgraded",
    "Verif.C82_made",
    "Verif.C82_left_alone",
    "Verif.C82_not_asked",
    "Verif.C82_only_if_told",
    "Verif.C82_offered_partial",
    "Verif.C82_answered",
    "Verif.C82_whole_partial",
    "Verif.C82_cut_violated",
    "Verif.C82_parent_violated",
    "Verif.C82_session_violated",
    "Verif.C82_directory_violated",
    "Verif.C82_exit_violated",
    "Verif.C82_empty_violated"
   ],
   "note": "C82_offered_partial: not for a client that says that its system is .. (C82_parent_violated). C82_whole_partial: provided that both transfers went well, which is not looked at (C82_cut_violated). C82_session_violated: something that is not a regular file ends the session. C82_directory_violated: the directory of the client has to be there. C82_exit_violated: the exit code of an upgraded run is 0. C82_empty_violated: no answer for an empty name. zlib is assumed to give back what it was given."
  },
  {
   "property": "C83",
   "status": "partial",
   "theorems": [
    "Verif.C83_pre_stops",
    "Verif.C83_course",
    "Verif.C83_failure_told",
    "Verif.C83_success_told",
    "Verif.C83_outcome",
    "Verif.C83_no_false_alarm",
    "Verif.C83_success_true_partial",
    "Verif.C83_not_met",
    "Verif.C83_trouble_told",
    "Verif.C83_timer_told",
    "Verif.C83_script_failed",
    "Verif.C83_busy",
    "Verif.C83_action",
    "Verif.C83_check_violated",
    "Verif.C83_refused_violated",
    "Verif.C83_turned_away_violated",
    "Verif.C83_failovers_violated",
    "Verif.C83_delete_violated",
    "Verif.C83_finalised_violated",
    "Verif.C83_args_violated",
    "Verif.C83_args_partial"
   ],
   "note": "C83_success_true_partial: not for a check of the timer alone (C83_check_violated) and for refused backups (C83_refused_violated). C83_turned_away_violated: the script afterwards is told that a backup turned away succeeded. C83_failovers_violated: notify_failure_on_backup_with_failovers_left works the other way round. C83_delete_violated: a deletion is called unknown. C83_finalised_violated: a backup completed later is never notified. C83_args_partial: up to 63 arguments (C83_args_violated)."
  },
  {
   "property": "C84",
   "status": "partial",
   "theorems": [
    "Verif.C84_settings",
    "Verif.C84_left_alone",
    "Verif.C84_refused",
    "Verif.C84_got",
    "Verif.C84_named_partial",
    "Verif.C84_again",
    "Verif.C84_conf_whole",
    "Verif.C84_prefix_violated",
    "Verif.C84_missing_violated",
    "Verif.C84_inject_violated",
    "Verif.C84_removed_violated",
    "Verif.C84_interrupted_violated"
   ],
   "note": "C84_named_partial: if the name is not the beginning of the old one (C84_prefix_violated), and can stand in a line as it is (C84_inject_violated: a name with line breaks puts any settings into the file). C84_missing_violated: no line is added. C84_removed_violated: certificates that were there before are removed after an error. C84_interrupted_violated: a client killed after the key was made never asks again."
  },
  {
   "property": "C85",
   "status": "partial",
   "theorems": [
    "Verif.C85_not_early",
    "Verif.C85_any_clock",
    "Verif.C85_in_time",
    "Verif.C85_off",
    "Verif.C85_pause_violated"
   ],
   "note": "In time (C85_in_time) up to a factor: the number of seconds between two calls. C85_pause_violated: a pause between two calls counts as one second, however long it is."
  },
  {
   "property": "C86",
   "status": "partial",
   "theorems": [
    "Verif.C86_rate",
    "Verif.C86_total",
    "Verif.C86_goes_on",
    "Verif.C86_set_back",
    "Verif.C86_pause",
    "Verif.C86_unlimited",
    "Verif.C86_first_second_violated",
    "Verif.C86_made_up_violated",
    "Verif.C86_clock_violated",
    "Verif.C86_negative_violated"
   ],
   "note": "After the first second (C86_first_second_violated), on the average since the beginning (C86_made_up_violated), and if the clock does not go back (C86_clock_violated). C86_negative_violated: a limit below zero is accepted and stops the connection for ever."
  },
  {
   "property": "C87",
   "status": "proved",
   "theorems": [
    "Verif.C87_nothing_inside",
    "Verif.C87_in_order",
    "Verif.C87_no_stall",
    "Verif.C87_delivered",
    "Verif.C87_other_peer"
   ],
   "note": "OpenSSL is an assumption (written down at the head of Verif.Model.Tls). C87_other_peer shows that the result rests on the sender being a burp, whose writes end with whole messages and are no larger than the buffer of the receiver."
  },
  {
   "property": "C88",
   "status": "partial",
   "theorems": [
    "Verif.C88_names",
    "Verif.C88_nothing",
    "Verif.C88_contents",
    "Verif.C88_parseable",
    "Verif.C88_restore",
    "Verif.C88_directory",
    "Verif.C88_mode",
    "Verif.C88_kind",
    "Verif.C88_cut",
    "Verif.C88_cut_violated",
    "Verif.C88_memory_violated",
    "Verif.C88_parseable_violated",
    "Verif.C88_arrow_violated",
    "Verif.C88_empty_violated",
    "Verif.C88_lines_violated"
   ],
   "note": "C88_cut_violated: a listing that is cut off ends like a whole one. C88_memory_violated: in the listing of a directory, memory behind the name is sent to the client; C88_parseable_violated: so that a parseable one cannot be read back. C88_arrow_violated, C88_empty_violated, C88_lines_violated: oddities of long and short listings."
  },
  {
   "property": "C89",
   "status": "partial",
   "theorems": [
    "Verif.C89_nothing_else",
    "Verif.C89_success",
    "Verif.C89_works",
    "Verif.C89_dirs_only",
    "Verif.C89_empty_directories",
    "Verif.C89_aside",
    "Verif.C89_deleted",
    "Verif.C89_unseen_violated",
    "Verif.C89_link_violated",
    "Verif.C89_stops_violated",
    "Verif.C89_long_name_violated",
    "Verif.C89_moved",
    "Verif.C89_aside_works",
    "Verif.C89_deleted_works",
    "Verif.C89_moved_works"
   ],
   "note": "C89_unseen_violated: a failing look is taken for nothing being there. C89_link_violated: a link whose first look fails is followed. C89_stops_violated: one file that cannot be deleted keeps others. C89_long_name_violated: names put aside are cut off. Others changing the same directories at the same time are not modelled, nor are mounts and open files."
  },
  {
   "property": "C90",
   "status": "partial",
   "theorems": [
    "Verif.C90_written",
    "Verif.C90_going",
    "Verif.C90_delta_messages",
    "Verif.C90_ends",
    "Verif.C90_signature_loaded",
    "Verif.C90_no_overflow",
    "Verif.C90_changed_file",
    "Verif.C90_own_messages_fit",
    "Verif.C90_overflow_violated",
    "Verif.C90_block_length"
   ],
   "note": "C90_overflow_violated: a message of a signature is copied into a buffer of 16000 bytes whatever its length. What librsync computes is assumed, as is that its job for loading a signature takes all the input it is given. Differences from files (rs_delta_gzfile, rs_loadsig_gzfile) go through rs_whole_gzrun too and are covered as such."
  },
  {
   "property": "C91",
   "status": "partial",
   "theorems": [
    "Verif.C91_attributes",
    "Verif.C91_others_left",
    "Verif.C91_special_made",
    "Verif.C91_hard_link",
    "Verif.C91_not_root_violated",
    "Verif.C91_special_violated",
    "Verif.C91_directory_first_violated"
   ],
   "note": "C91_not_root_violated: when the owner cannot be set, neither the mode nor the times are. C91_special_violated: another file in the place of a fifo or device is taken for it. C91_directory_first_violated shows why the order (C31) is needed. Fractions of seconds are not in the manifest. Symbolic links on the way are the matter of C49; contents, extended attributes and Windows are not modelled here."
  },
  {
   "property": "C92",
   "status": "partial",
   "theorems": [
    "Verif.C92_compress_safe",
    "Verif.C92_compress_result",
    "Verif.C92_inflate",
    "Verif.C92_round_trip",
    "Verif.C92_truncate",
    "Verif.C92_read_ensure",
    "Verif.C92_printf_grows",
    "Verif.C92_compress_violated",
    "Verif.C92_inflate_violated",
    "Verif.C92_cut_short_violated",
    "Verif.C92_read_hangs_violated"
   ],
   "note": "C92_compress_violated: a read error is taken for the end of the file, which is then removed. C92_inflate_violated: on a damaged file zlib_inflate writes (size_t)-1 bytes. C92_cut_short_violated: a compressed file whose end is missing counts as whole. C92_read_hangs_violated: fzp_read_ensure never returns where fread fails. What zlib does with the bytes is assumed, and that what was written is on the disk."
  },
  {
   "property": "C93",
   "status": "partial",
   "theorems": [
    "Verif.C93_answer_partial",
    "Verif.C93_log",
    "Verif.C93_warning",
    "Verif.C93_selection",
    "Verif.C93_history",
    "Verif.C93_merge_partial",
    "Verif.C93_back_partial",
    "Verif.C93_server_says",
    "Verif.C93_backups_violated",
    "Verif.C93_back_violated",
    "Verif.C93_deleted_violated",
    "Verif.C93_key_violated",
    "Verif.C93_order_violated",
    "Verif.C93_answers_violated"
   ],
   "note": "C93_backups_violated: when the latest backup that was shown has gone, each of the others is shown twice. C93_back_violated: after an insertion in the middle, going up the list skips an entry. C93_deleted_violated: a deleted client stays. C93_key_violated: a long key overruns an array. C93_order_violated, C93_answers_violated. The text of the JSON and yajl are not part of this model."
  },
  {
   "property": "C94",
   "status": "partial",
   "theorems": [
    "Verif.C94_string",
    "Verif.C94_roundtrip",
    "Verif.C94_injective",
    "Verif.C94_chunks",
    "Verif.C94_defined_partial",
    "Verif.C94_number_partial",
    "Verif.C94_wellformed",
    "Verif.C94_lines",
    "Verif.C94_answers",
    "Verif.C94_server_partial",
    "Verif.C94_message_partial",
    "Verif.C94_defined_violated",
    "Verif.C94_least_violated",
    "Verif.C94_lines_violated",
    "Verif.C94_message_violated"
   ],
   "note": "C94_defined_violated: a number of nineteen digits can overflow a signed number. C94_least_violated: the least 64-bit number can be written but not read. C94_lines_violated: a line of more than 32030 bytes cannot be read. C94_message_violated: a message with a backslash in it is not JSON. UTF-8 validation is off in the program, and doubles, which burp never writes, are read but not kept."
  },
  {
   "property": "C95",
   "status": "partial",
   "theorems": [
    "Verif.C95_depth",
    "Verif.C95_reached",
    "Verif.C95_metadata",
    "Verif.C95_entries_partial",
    "Verif.C95_complete_partial",
    "Verif.C95_directories_partial",
    "Verif.C95_unread",
    "Verif.C95_raises",
    "Verif.C95_list",
    "Verif.C95_no_list",
    "Verif.C95_kinds",
    "Verif.C95_vanished_violated",
    "Verif.C95_lost_violated",
    "Verif.C95_twice_violated",
    "Verif.C95_unopened_violated",
    "Verif.C95_ordered_partial",
    "Verif.C95_wanted_partial"
   ],
   "note": "C95_vanished_violated: a file that has gone when it is looked at is listed as a hard link to the file before it. C95_lost_violated: through such a file another one can be listed as a link to what is not in the list, and its data are lost. C95_twice_violated: a directory on a file system that is left out is listed twice. C95_unopened_violated: with include_ext a directory that cannot be opened is left out without a word. That other files are there once and in order is C62."
  },
  {
   "property": "C96",
   "status": "partial",
   "theorems": [
    "Verif.C96_spelled",
    "Verif.C96_unique",
    "Verif.C96_line",
    "Verif.C96_refused",
    "Verif.C96_first",
    "Verif.C96_client",
    "Verif.C96_server",
    "Verif.C96_delete",
    "Verif.C96_request",
    "Verif.C96_order",
    "Verif.C96_code_partial",
    "Verif.C96_action_violated",
    "Verif.C96_help_violated",
    "Verif.C96_test_violated",
    "Verif.C96_delay_violated"
   ],
   "note": "C96_action_violated: only the first letter of an action is looked at, so that -a browse makes a backup and -a remove restores. C96_help_violated: -a c, which the help mentions, is refused. C96_test_violated: -t -C client always reports failure. C96_delay_violated: -q 0 does not take away the delay that is configured. getopt is that of the GNU C library without POSIXLY_CORRECT."
  },
  {
   "property": "C97",
   "status": "partial",
   "theorems": [
    "Verif.C97_scan_partial",
    "Verif.C97_listed_partial",
    "Verif.C97_storage_partial",
    "Verif.C97_restores_partial",
    "Verif.C97_nothing_else_partial",
    "Verif.C97_completes_partial"
   ],
   "note": "Composes C62, C95 and C69. Missing: names that go while they are looked at (C95_vanished_violated), file systems that are left out by type (C95_twice_violated), nested included directories beneath excluded ones (C62_nested_violated), interrupted backups (C68), and the phases of the restore on the client."
  },
  {
   "property": "C98",
   "status": "partial",
   "theorems": [
    "Verif.C98_outcome_partial",
    "Verif.C98_all_answered_partial",
    "Verif.C98_ends",
    "Verif.C98_stuck_partial",
    "Verif.C98_completes_partial",
    "Verif.C98_stall_violated"
   ],
   "note": "Fails in one way: the server writes the end of the requests without reading, and can wait for the client while the client waits for it (C98_stall_violated). C98_stuck_partial shows that this is the only way to get stuck; C98_completes_partial that it cannot happen if the answers fit into the network, or the requests into the buffer. Deltas that break off on the client are left out: they fail in another way (C50_delta_read_error_violated)."
  },
  {
   "property": "C99",
   "status": "partial",
   "theorems": [
    "Verif.C99_outcome_partial",
    "Verif.C99_all_read_partial",
    "Verif.C99_ends",
    "Verif.C99_stuck_partial",
    "Verif.C99_completes_partial",
    "Verif.C99_stall_violated"
   ],
   "note": "Fails where both sides write and neither reads: the client complains while the server is in the middle of an entry (C99_stall_violated, for any entries the client says more about than the way to the server holds, followed by more data than the way to the client holds). C99_stuck_partial shows that this is the only way to get stuck; C99_completes_partial that it cannot happen if what one of the sides writes fits into its buffer or into the network. Entries with the same data path are left out: they fail in another way (C50_same_datapth_violated)."
  },
  {
   "property": "C100",
   "status": "partial",
   "theorems": [
    "Verif.C100_unnoticed_partial",
    "Verif.C100_nothing_else_partial",
    "Verif.C100_kept_partial",
    "Verif.C100_hands_off_partial",
    "Verif.C100_finished_backup_violated",
    "Verif.C100_new_backup_violated"
   ],
   "note": "Fails when a backup of a client begins while bedup is at the files of that client, since bedup reads the links to the backup under way only once per client: a finished backup can get data that its file never had (C100_finished_backup_violated), or the new backup loses what is written after the file was replaced (C100_new_backup_violated). Proved for all runs in which no backup of a client begins in that time; backups that are already under way, of any client, and all that the server does otherwise, are allowed."
  },
  {
   "property": "C101",
   "status": "partial",
   "theorems": [
    "Verif.C101_lines_partial",
    "Verif.C101_unique",
    "Verif.C101_started_partial",
    "Verif.C101_endless_partial",
    "Verif.C101_long_violated",
    "Verif.C101_root_violated",
    "Verif.C101_name_violated"
   ],
   "note": "Fails for lines of 4095 bytes or more, which are read as several lines, so that the end of a comment can be a setting (C101_long_violated); for a file in the root directory, whose relative inclusions are taken from the directory the program was started in (C101_root_violated); and for a file that is given by a name without a slash, whose relative inclusions are not found (C101_name_violated). Proved otherwise, for text files. The settings that lines stand for are those of C52 and C73."
  },
  {
   "property": "C102",
   "status": "partial",
   "theorems": [
    "Verif.C102_starts",
    "Verif.C102_unchanged",
    "Verif.C102_server",
    "Verif.C102_client_partial",
    "Verif.C102_peer_violated",
    "Verif.C102_client_file_violated"
   ],
   "note": "Fails for a server that is given by an address of IPv6: the name that is expected in its certificate is what comes before the first colon (C102_peer_violated). Fails for the settings of a client on the server, which are not checked again after its own file has been read (C102_client_file_violated). Proved otherwise."
  },
  {
   "property": "C103",
   "status": "partial",
   "theorems": [
    "Verif.C103_tree",
    "Verif.C103_where",
    "Verif.C103_stored_partial",
    "Verif.C103_limits",
    "Verif.C103_refused",
    "Verif.C103_long_path_violated",
    "Verif.C103_short_names_violated"
   ],
   "note": "Fails for paths that are longer than the operating system allows, but not by more than a name: the limit is taken to be the sum of both, and the backup ends with an error (C103_long_path_violated). Fails where names are limited to less than 255 characters (C103_short_names_violated). C103_stored_partial is for paths that the operating system accepts."
  },
  {
   "property": "C104",
   "status": "partial",
   "theorems": [
    "Verif.C104_listed_partial",
    "Verif.C104_order",
    "Verif.C104_numbers",
    "Verif.C104_current_partial",
    "Verif.C104_short_names",
    "Verif.C104_long_names_violated",
    "Verif.C104_long_path_violated"
   ],
   "note": "Fails for a timestamp_format that makes more than 29 characters: the links are read into buffers of 38, so that the backup that is being made is listed as complete and none is the current one (C104_long_names_violated). Whether there is a manifest is wrong for paths of 256 characters (C104_long_path_violated). C104_listed_partial and C104_current_partial are for links with at most 37 characters, which the format that is used if none is set makes (C104_short_names)."
  },
  {
   "property": "C105",
   "status": "partial",
   "theorems": [
    "Verif.C105_restored_partial",
    "Verif.C105_last_partial",
    "Verif.C105_encrypted",
    "Verif.C105_hard_link_violated",
    "Verif.C105_uncompressed_violated",
    "Verif.C105_salt_violated",
    "Verif.C105_password_violated",
    "Verif.C105_compression_violated"
   ],
   "note": "Fails for files that were hard links to a deleted file: the data of that are used, with the compression, encryption and salt of the hard link. The restore fails if the file was not compressed because of exclude_comp (C105_hard_link_violated), gives the uncompressed content if that was compressed by itself (C105_uncompressed_violated), and fails for every encrypted file (C105_salt_violated). Fails for backups that are resumed with another password (C105_password_violated) or with compression switched on or off (C105_compression_violated). C105_restored_partial and C105_last_partial are for the rest."
  },
  {
   "property": "C106",
   "status": "partial",
   "theorems": [
    "Verif.C106_stopped_only",
    "Verif.C106_goes_on",
    "Verif.C106_in_time_band",
    "Verif.C106_checked",
    "Verif.C106_asked_partial",
    "Verif.C106_begins",
    "Verif.C106_asked_violated",
    "Verif.C106_check_violated",
    "Verif.C106_status_lines",
    "Verif.C106_status_gap",
    "Verif.C106_status_sent"
   ],
   "note": "Fails for backups that have been asked for: with timer_repeat_interval they are stopped at the first entry (C106_asked_violated), and a request that only asks whether the timer allows a backup makes the server forget about them (C106_check_violated). C106_asked_partial says that such a backup begins."
  },
  {
   "property": "C107",
   "status": "partial",
   "theorems": [
    "Verif.C107_counts",
    "Verif.C107_bytes_partial",
    "Verif.C107_bytes_violated",
    "Verif.C107_warnings_violated"
   ],
   "note": "C107_counts is the whole claim for the numbers of entries and the estimate; C107_bytes_partial has the bytes too, without separate Windows headers, where they fail (C107_bytes_violated). Warnings are forgotten (C107_warnings_violated). That what was written to the files is there is assumed, as in C30: a killed server can lose it."
  },
  {
   "property": "C108",
   "status": "partial",
   "theorems": [
    "Verif.C108_readable",
    "Verif.C108_rows_readable",
    "Verif.C108_kept",
    "Verif.C108_counters",
    "Verif.C108_lengths",
    "Verif.C108_works",
    "Verif.C108_paths",
    "Verif.C108_complete_partial"
   ],
   "note": "C108_readable, C108_rows_readable and C108_kept hold for all bytes in the files. C108_works and C108_paths are for lists that burp wrote, up to any byte, and C108_counters for such files of counters. C108_complete_partial is the whole claim for any number of interruptions that lose nothing but a part of the last entry of each list; that no more is lost is not ensured by the program (C30_lost_unchanged_violated)."
  },
  {
   "property": "C109",
   "status": "partial",
   "theorems": [
    "Verif.C109_order",
    "Verif.C109_heard",
    "Verif.C109_all_heard",
    "Verif.C109_goes_on",
    "Verif.C109_gentle_partial",
    "Verif.C109_gentle_ends",
    "Verif.C109_stays",
    "Verif.C109_list",
    "Verif.C109_names",
    "Verif.C109_list_line",
    "Verif.C109_list_due",
    "Verif.C109_list_clock",
    "Verif.C109_no_name",
    "Verif.C109_list_apart",
    "Verif.C109_fork_violated",
    "Verif.C109_reload_then_end_violated",
    "Verif.C109_end_then_reload_violated",
    "Verif.C109_gentle_accepts_violated"
   ],
   "note": "C109_order, C109_heard, C109_all_heard, C109_list, C109_names, C109_list_line, C109_list_due, C109_list_apart, C109_goes_on, C109_stays and C109_gentle_ends hold as stated. C109_gentle_partial is without SIGHUP: with it the server ends while children are at work (C109_reload_then_end_violated, C109_end_then_reload_violated). A failing accept, pipe or fork ends the whole server (C109_fork_violated), and new clients put off a gentle end for ever (C109_gentle_accepts_violated)."
  },
  {
   "property": "C110",
   "status": "partial",
   "theorems": [
    "Verif.C110_output",
    "Verif.C110_so_far",
    "Verif.C110_buffer",
    "Verif.C110_buffer_both",
    "Verif.C110_error",
    "Verif.C110_lines",
    "Verif.C110_pieces",
    "Verif.C110_logged",
    "Verif.C110_waits",
    "Verif.C110_returns",
    "Verif.C110_code",
    "Verif.C110_several",
    "Verif.C110_warnings",
    "Verif.C110_args",
    "Verif.C110_background_violated",
    "Verif.C110_nul_violated",
    "Verif.C110_long_line_violated",
    "Verif.C110_args_violated",
    "Verif.C110_stale_violated"
   ],
   "note": "C110_output, C110_so_far, C110_lines, C110_pieces, C110_logged, C110_buffer, C110_warnings, C110_waits, C110_returns, C110_code, C110_several and C110_args hold as stated. Not covered: lines of more than 255 bytes are logged in pieces (C110_long_line_violated), output after a NUL is lost (C110_nul_violated), a process that the script leaves running with its output keeps burp waiting (C110_background_violated), arguments after the 63rd are dropped (C110_args_violated), and after a failed select the next script may get the result of the last (C110_stale_violated)."
  },
  {
   "property": "C111",
   "status": "partial",
   "theorems": [
    "Verif.C111_complete_partial",
    "Verif.C111_progress_partial",
    "Verif.C111_not_unscanned_partial",
    "Verif.C111_outcomes",
    "Verif.C111_kept",
    "Verif.C111_untouched",
    "Verif.C111_removed_only",
    "Verif.C111_told_partial",
    "Verif.C111_window_lost_violated",
    "Verif.C111_window_deleted_violated",
    "Verif.C111_told_then_deleted_violated",
    "Verif.C111_client_not_told_violated",
    "Verif.C111_removal_violated"
   ],
   "note": "C111_complete_partial, C111_progress_partial and C111_not_unscanned_partial leave out a stop in the window between the removal of the list of changed entries and the link `finishing`, and a stop while a directory is removed; C111_outcomes has the window and says what can then be lost; C111_kept holds as stated; C111_told_partial has a backup whose scan is still there. Not covered, because the code does not do it: C111_window_lost_violated, C111_window_deleted_violated, C111_told_then_deleted_violated, C111_client_not_told_violated, C111_removal_violated."
  },
  {
   "property": "C112",
   "status": "partial",
   "theorems": [
    "Verif.C112_refused",
    "Verif.C112_help",
    "Verif.C112_only",
    "Verif.C112_storage",
    "Verif.C112_lock_path",
    "Verif.C112_failure",
    "Verif.C112_delete",
    "Verif.C112_links",
    "Verif.C112_limit",
    "Verif.C112_locked",
    "Verif.C112_global",
    "Verif.C112_exclusive",
    "Verif.C112_all_partial",
    "Verif.C112_args_partial",
    "Verif.C112_bad_client_violated",
    "Verif.C112_empty_argument_violated",
    "Verif.C112_no_link_violated",
    "Verif.C112_negative_violated",
    "Verif.C112_stops_violated"
   ],
   "note": "C112_refused, C112_help, C112_only, C112_storage, C112_delete, C112_links, C112_limit, C112_locked, C112_global and C112_exclusive hold as stated (that a lock is had by one process at a time is C54). C112_all_partial and C112_args_partial leave out a client whose configuration cannot be loaded and work that fails. Not covered, because the code does not do it: C112_bad_client_violated, C112_stops_violated, C112_empty_argument_violated, C112_no_link_violated, C112_negative_violated."
  },
  {
   "property": "C113",
   "status": "partial",
   "theorems": [
    "Verif.C113_user",
    "Verif.C113_group",
    "Verif.C113_runs_partial",
    "Verif.C113_readall",
    "Verif.C113_no_return",
    "Verif.C113_not_asked",
    "Verif.C113_unknown",
    "Verif.C113_ordinary",
    "Verif.C113_ordinary_served",
    "Verif.C113_child_user",
    "Verif.C113_child_same",
    "Verif.C113_child_own_partial",
    "Verif.C113_user_only_violated",
    "Verif.C113_user_only_server_violated",
    "Verif.C113_groups_kept_violated",
    "Verif.C113_child_groups_violated",
    "Verif.C113_override_violated",
    "Verif.C113_effective_violated"
   ],
   "note": "C113_user, C113_group, C113_readall, C113_no_return, C113_unknown, C113_ordinary and C113_child_user hold as stated; C113_runs_partial and C113_child_own_partial need a group that is not the one burp was started with. Not covered, because the code does not do it: C113_user_only_violated, C113_user_only_server_violated, C113_groups_kept_violated, C113_child_groups_violated, C113_override_violated, C113_effective_violated. What the system calls do is taken from their manual pages."
  },
  {
   "property": "C114",
   "status": "partial",
   "theorems": [
    "Verif.C114_off",
    "Verif.C114_no_dir",
    "Verif.C114_ca_dir",
    "Verif.C114_ready",
    "Verif.C114_existing",
    "Verif.C114_once",
    "Verif.C114_all_or_nothing",
    "Verif.C114_only",
    "Verif.C114_cut_partial",
    "Verif.C114_crash_violated",
    "Verif.C114_link_violated",
    "Verif.C114_lost_violated",
    "Verif.C114_crl_violated"
   ],
   "note": "C114_off, C114_no_dir, C114_ca_dir, C114_ready, C114_existing, C114_once, C114_all_or_nothing and C114_only hold as stated, given burp_ca as it is written (WorldOk) and paths of settings that are apart. C114_cut_partial needs a cut before the directory is there. Not covered, because the code does not do it: C114_crash_violated, C114_link_violated, C114_lost_violated, C114_crl_violated."
  },
  {
   "property": "C115",
   "status": "partial",
   "theorems": [
    "Verif.C115_one_writer",
    "Verif.C115_one_reader",
    "Verif.C115_locks",
    "Verif.C115_ends",
    "Verif.C115_writer_served",
    "Verif.C115_whole_partial",
    "Verif.C115_list_partial",
    "Verif.C115_restored_partial",
    "Verif.C115_restored_whole",
    "Verif.C115_removed_violated",
    "Verif.C115_list_violated",
    "Verif.C115_unlinked_violated"
   ],
   "note": "C115_one_writer, C115_one_reader, C115_locks, C115_ends and C115_writer_served hold as stated. C115_whole_partial and C115_restored_whole need that no session removes the backup; C115_list_partial and C115_restored_partial need, where a list was sent, that no other session is a restore. Not covered, because the code does not do it: C115_removed_violated, C115_list_violated, C115_unlinked_violated."
  },
  {
   "property": "C116",
   "status": "partial",
   "theorems": [
    "Verif.C116_places",
    "Verif.C116_backups",
    "Verif.C116_lock",
    "Verif.C116_deleteme",
    "Verif.C116_unset",
    "Verif.C116_apart_partial",
    "Verif.C116_locks_apart",
    "Verif.C116_lock_outside",
    "Verif.C116_distinct",
    "Verif.C116_resumed",
    "Verif.C116_backups_apart",
    "Verif.C116_manual_violated",
    "Verif.C116_nested_violated",
    "Verif.C116_format_violated"
   ],
   "note": "C116_places, C116_backups, C116_lock, C116_deleteme, C116_unset, C116_locks_apart, C116_lock_outside, C116_distinct, C116_resumed and C116_backups_apart hold as stated. C116_apart_partial needs that the two clients have the same directory and no manual_delete. Not covered, because the code does not do it: C116_manual_violated, C116_nested_violated, C116_format_violated."
  },
  {
   "property": "C117",
   "status": "partial",
   "theorems": [
    "Verif.C117_split",
    "Verif.C117_parted",
    "Verif.C117_listens_partial",
    "Verif.C117_nowhere_else",
    "Verif.C117_starts",
    "Verif.C117_one_bad",
    "Verif.C117_admits",
    "Verif.C117_unreadable",
    "Verif.C117_activated",
    "Verif.C117_strange",
    "Verif.C117_activated_kind_partial",
    "Verif.C117_unwatched_violated",
    "Verif.C117_networks_violated",
    "Verif.C117_same_port_violated",
    "Verif.C117_no_socket_violated"
   ],
   "note": "C117_split, C117_parted, C117_nowhere_else, C117_starts, C117_one_bad, C117_admits, C117_unreadable, C117_activated and C117_strange hold as stated. C117_listens_partial needs that every socket can be watched. C117_activated_kind_partial needs that no port is both for clients and for monitors and that systemd tells the ports. Not covered, because the code does not do it: C117_unwatched_violated, C117_networks_violated, C117_same_port_violated, C117_no_socket_violated."
  },
  {
   "property": "C118",
   "status": "partial",
   "theorems": [
    "Verif.C118_kept",
    "Verif.C118_whole",
    "Verif.C118_always_one",
    "Verif.C118_goes_on",
    "Verif.C118_again",
    "Verif.C118_failed_gone",
    "Verif.C118_recovered_violated"
   ],
   "note": "C118_kept, C118_whole, C118_always_one, C118_goes_on, C118_again and C118_failed_gone hold as stated, for manifests in order. Not covered, because the code does not do it: C118_recovered_violated."
  },
  {
   "property": "C119",
   "status": "partial",
   "theorems": [
    "Verif.C119_names",
    "Verif.C119_exact_partial",
    "Verif.C119_shape",
    "Verif.C119_old_or_new",
    "Verif.C119_failure",
    "Verif.C119_errors",
    "Verif.C119_left_over_violated",
    "Verif.C119_short_violated",
    "Verif.C119_signal_violated"
   ],
   "note": "C119_old_or_new, C119_failure, C119_errors, C119_names and C119_shape hold as stated. C119_exact_partial: the whole text, if the system takes all it is given and no longer temporary file is left over. Otherwise the code does not do it: C119_left_over_violated, C119_short_violated, C119_signal_violated."
  },
  {
   "property": "C120",
   "status": "partial",
   "theorems": [
    "Verif.C120_place",
    "Verif.C120_found",
    "Verif.C120_new",
    "Verif.C120_failure",
    "Verif.C120_confined_partial",
    "Verif.C120_absolute",
    "Verif.C120_root_partial",
    "Verif.C120_stripped_violated"
   ],
   "note": "C120_place, C120_found, C120_new, C120_failure and C120_absolute hold as stated. C120_confined_partial: not for sockets and metadata of directories with odd paths, as in C49. C120_root_partial: for paths that start with a slash; otherwise the code does not do it: C120_stripped_violated."
  },
  {
   "property": "C121",
   "status": "partial",
   "theorems": [
    "Verif.C121_shown",
    "Verif.C121_sent",
    "Verif.C121_exact",
    "Verif.C121_arrives_partial",
    "Verif.C121_room",
    "Verif.C121_taken",
    "Verif.C121_end_violated",
    "Verif.C121_long_violated"
   ],
   "note": "C121_shown, C121_sent, C121_exact, C121_room and C121_taken hold as stated. C121_arrives_partial: for lines shorter than 32025 bytes and as long as neither side has ended; otherwise the code does not do it: C121_long_violated, C121_end_violated. That the server reads the requests as they were sent is C11 and C13."
  },
  {
   "property": "C122",
   "status": "partial",
   "theorems": [
    "Verif.C122_kept",
    "Verif.C122_counted",
    "Verif.C122_file",
    "Verif.C122_no_file",
    "Verif.C122_set",
    "Verif.C122_estimate",
    "Verif.C122_message",
    "Verif.C122_lines_partial",
    "Verif.C122_long_violated",
    "Verif.C122_forged_violated"
   ],
   "note": "C122_kept, C122_counted, C122_file, C122_no_file, C122_set, C122_estimate and C122_message hold as stated. C122_lines_partial: for texts of one line of at most 501 bytes; otherwise the code does not do it: C122_long_violated, C122_forged_violated."
  },
  {
   "property": "C123",
   "status": "partial",
   "theorems": [
    "Verif.C123_time_partial",
    "Verif.C123_time_distinct",
    "Verif.C123_unit",
    "Verif.C123_near",
    "Verif.C123_size_partial",
    "Verif.C123_size_violated"
   ],
   "note": "C123_time_distinct, C123_unit and C123_near hold as stated. C123_time_partial: for less than a million days. C123_size_partial: below 1024 TB; from there on the code does not do it: C123_size_violated. The two digits after the point are not modelled."
  },
  {
   "property": "C124",
   "status": "partial",
   "theorems": [
    "Verif.C124_std",
    "Verif.C124_closed_partial",
    "Verif.C124_high_violated",
    "Verif.C124_inherit_partial",
    "Verif.C124_loop_violated",
    "Verif.C124_parent",
    "Verif.C124_leak_violated",
    "Verif.C124_ends",
    "Verif.C124_eof_partial"
   ],
   "note": "C124_std, C124_parent and C124_ends hold as stated. C124_closed_partial and C124_eof_partial: for descriptors below FD_SETSIZE; from there on the code does not do it: C124_high_violated. C124_inherit_partial: if the three standard descriptors are open; otherwise the code does not do it: C124_loop_violated. When the second pipe cannot be made the first stays open: C124_leak_violated. Failures of dup2, fdopen and execv are not modelled."
  },
  {
   "property": "C125",
   "status": "partial",
   "theorems": [
    "Verif.C125_safe",
    "Verif.C125_shell",
    "Verif.C125_issuer",
    "Verif.C125_subject",
    "Verif.C125_dates",
    "Verif.C125_dates_text",
    "Verif.C125_cn_partial",
    "Verif.C125_cn_violated",
    "Verif.C125_alike_violated"
   ],
   "note": "C125_safe, C125_shell, C125_issuer, C125_subject, C125_dates and C125_dates_text hold as stated. C125_cn_partial: for certificates with one common name, of at most 255 bytes, of characters that are kept; with two the code does not do it: C125_cn_violated. Different values can look the same: C125_alike_violated. What OpenSSL gives for a field is an input."
  },
  {
   "property": "C126",
   "status": "partial",
   "theorems": [
    "Verif.C126_equal_partial",
    "Verif.C126_missing",
    "Verif.C126_error",
    "Verif.C126_error_violated",
    "Verif.C126_unopened_violated"
   ],
   "note": "C126_missing and C126_error hold as stated. C126_equal_partial: for files that can be read to the end; an error in reading is taken for the end: C126_error_violated. Two files that cannot be opened are the same: C126_unopened_violated. Compressed files are not modelled; no caller asks for them."
  },
  {
   "property": "C127",
   "status": "partial",
   "theorems": [
    "Verif.C127_text_partial",
    "Verif.C127_escape_violated",
    "Verif.C127_forged_violated",
    "Verif.C127_length",
    "Verif.C127_distinct",
    "Verif.C127_binary",
    "Verif.C127_binary_said"
   ],
   "note": "C127_length, C127_distinct, C127_binary and C127_binary_said hold as stated. C127_text_partial: if the command is such a character, and with newlines; otherwise the code does not do it: C127_escape_violated, C127_forged_violated."
  },
  {
   "property": "C128",
   "status": "partial",
   "theorems": [
    "Verif.C128_read_partial",
    "Verif.C128_fixed",
    "Verif.C128_distinct",
    "Verif.C128_autumn_violated",
    "Verif.C128_zone_violated",
    "Verif.C128_bound",
    "Verif.C128_interval"
   ],
   "note": "C128_fixed, C128_distinct, C128_bound and C128_interval hold as stated: what is read is wrong by at most what clocks are ever changed by. C128_read_partial: for a time that clocks show only once; in the hour that comes twice, and in another time zone, the code does not do it, because the zone that is written is not used: C128_autumn_violated, C128_zone_violated. Dates are modelled by seconds of the calendar, not as text."
  },
  {
   "property": "C129",
   "status": "partial",
   "theorems": [
    "Verif.C129_files_partial",
    "Verif.C129_dirs",
    "Verif.C129_limit",
    "Verif.C129_reported",
    "Verif.C129_missing_violated",
    "Verif.C129_read_violated",
    "Verif.C129_flush_violated"
   ],
   "note": "C129_dirs, C129_limit and C129_reported hold as stated. C129_files_partial: if each file is found by lstat and can be read and its duplicate gets to the disk; otherwise the code does not do it: C129_missing_violated, C129_read_violated, C129_flush_violated. Failures with directories, and what a failed copy leaves behind, are not modelled."
  },
  {
   "property": "C130",
   "status": "partial",
   "theorems": [
    "Verif.C130_mode_partial",
    "Verif.C130_default_partial",
    "Verif.C130_named",
    "Verif.C130_plain",
    "Verif.C130_error_violated",
    "Verif.C130_entry_violated"
   ],
   "note": "C130_named and C130_plain hold as stated, for lists that can be read. C130_mode_partial, C130_default_partial: if the list can be read; otherwise the code does not do it: C130_error_violated, C130_entry_violated. The access check is that of acl(5), in Spec/Acl.lean."
  }
 ]
}