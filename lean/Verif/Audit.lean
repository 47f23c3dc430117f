import Verif.Props.Acl
import Verif.Props.Admission
import Verif.Props.Attribs
import Verif.Props.Auth
import Verif.Props.Autoupgrade
import Verif.Props.BackupList
import Verif.Props.BackupNumber
import Verif.Props.Bedup
import Verif.Props.BedupConc
import Verif.Props.BedupConcCases
import Verif.Props.BedupRun
import Verif.Props.Browse
import Verif.Props.CaClient
import Verif.Props.CaClientCases
import Verif.Props.CaServer
import Verif.Props.Cache
import Verif.Props.CacheCases
import Verif.Props.Children
import Verif.Props.ClientMain
import Verif.Props.Cntr
import Verif.Props.CntrStr
import Verif.Props.CommandLine
import Verif.Props.CommandLineCases
import Verif.Props.ConfCheck
import Verif.Props.ConfFiles
import Verif.Props.ConfLine
import Verif.Props.Confine
import Verif.Props.Confs
import Verif.Props.ConfsOwn
import Verif.Props.DataPath
import Verif.Props.Deletions
import Verif.Props.Diff
import Verif.Props.Dpth
import Verif.Props.EndToEnd
import Verif.Props.EndToEndCases
import Verif.Props.Ending
import Verif.Props.Exchange
import Verif.Props.ExchangeCases
import Verif.Props.ExchangeStall
import Verif.Props.ExtraMeta
import Verif.Props.ExtraMetaCases
import Verif.Props.FilesEqual
import Verif.Props.Find
import Verif.Props.FindLogic
import Verif.Props.ForkChild
import Verif.Props.Fzp
import Verif.Props.FzpCases
import Verif.Props.HardCopy
import Verif.Props.History
import Verif.Props.Human
import Verif.Props.Incexc
import Verif.Props.Interrupt
import Verif.Props.Ipacl
import Verif.Props.Jiggle
import Verif.Props.JsonInput
import Verif.Props.JsonInputCases
import Verif.Props.Links
import Verif.Props.ListClient
import Verif.Props.ListClientCases
import Verif.Props.Listening
import Verif.Props.Lock
import Verif.Props.Logging
import Verif.Props.MainLoop
import Verif.Props.Manifest
import Verif.Props.Merge
import Verif.Props.Monitor
import Verif.Props.MonitorCases
import Verif.Props.MonitorDisk
import Verif.Props.MonitorRun
import Verif.Props.Negotiate
import Verif.Props.Net
import Verif.Props.Notify
import Verif.Props.NotifyCases
import Verif.Props.Overwrite
import Verif.Props.PathCmp
import Verif.Props.Phase1
import Verif.Props.Phase1Cases
import Verif.Props.Phase1Order
import Verif.Props.Phase2
import Verif.Props.Prepend
import Verif.Props.Printable
import Verif.Props.Privs
import Verif.Props.Quota
import Verif.Props.RateLimit
import Verif.Props.RateLimitCases
import Verif.Props.Relay
import Verif.Props.Remove
import Verif.Props.RemoveBackup
import Verif.Props.RemoveCases
import Verif.Props.RemoveMoved
import Verif.Props.RemoveWorks
import Verif.Props.Request
import Verif.Props.Restore
import Verif.Props.RestoreAttr
import Verif.Props.RestoreAttrCases
import Verif.Props.RestoreFlow
import Verif.Props.RestoreFlowCases
import Verif.Props.RestoreFlowStall
import Verif.Props.RestoreSelect
import Verif.Props.RestoreTo
import Verif.Props.Resume
import Verif.Props.ResumeCntr
import Verif.Props.ResumeFiles
import Verif.Props.Retention
import Verif.Props.RsBuf
import Verif.Props.RsBufCases
import Verif.Props.Rubble
import Verif.Props.RunAction
import Verif.Props.RunScript
import Verif.Props.Scan
import Verif.Props.Sdirs
import Verif.Props.Seed
import Verif.Props.SendConf
import Verif.Props.Session
import Verif.Props.Sessions
import Verif.Props.Stamps
import Verif.Props.StatsFile
import Verif.Props.StoredForm
import Verif.Props.Strip
import Verif.Props.Strlist
import Verif.Props.Switch
import Verif.Props.TimedOps
import Verif.Props.Timeout
import Verif.Props.TimeoutCases
import Verif.Props.Timer
import Verif.Props.Tls
import Verif.Props.TlsCases
import Verif.Props.Transfer
import Verif.Props.Verify
import Verif.Props.Version
import Verif.Props.VssStrip
import Verif.Props.X509Env
import Verif.Props.Yajl
import Verif.Props.YajlCases

/-! What each property theorem rests on. Building this file prints, for every
theorem named in MANIFEST.json, the axioms it depends on. -/

#print axioms Verif.C01_base64_roundtrip
#print axioms Verif.C01_base64_format
#print axioms Verif.C02_attribs_roundtrip
#print axioms Verif.C02_attribs_legacy
#print axioms Verif.C03_pathcmp_total_order
#print axioms Verif.C03_pathcmp_lexicographic
#print axioms Verif.C04_directory_contiguous
#print axioms Verif.C04_sorted_contiguous
#print axioms Verif.C04_directory_first
#print axioms Verif.C05_entry_order_partial
#print axioms Verif.C05_entry_order_violated
#print axioms Verif.C06_is_subdir_exact
#print axioms Verif.C06_is_subdir_value
#print axioms Verif.C06_is_subdir_null
#print axioms Verif.C07_has_dot_component
#print axioms Verif.C07_is_absolute
#print axioms Verif.C08_records_roundtrip
#print axioms Verif.C08_record_format
#print axioms Verif.C08_too_long_refused
#print axioms Verif.C08_record_then_anything
#print axioms Verif.C09_manifest_roundtrip
#print axioms Verif.C09_entries_distinct
#print axioms Verif.C10_cut_gives_prefix
#print axioms Verif.C10_cut_reported_partial
#print axioms Verif.C10_cut_reported_violated
#print axioms Verif.C11_delivery_in_order
#print axioms Verif.C11_everything_delivered
#print axioms Verif.C11_fragmentation_irrelevant
#print axioms Verif.C12_read_buffer_bounded
#print axioms Verif.C12_never_waits_for_ever
#print axioms Verif.C12_oversized_rejected
#print axioms Verif.C12_buffer_terminated_violated
#print axioms Verif.C13_sent_in_order
#print axioms Verif.C13_write_buffer_bounded
#print axioms Verif.C13_append_all_or_nothing
#print axioms Verif.C13_accepted_when_drained
#print axioms Verif.C13_oversized_never_returns
#print axioms Verif.C13_empty_message_violated
#print axioms Verif.C14_no_dot_paths_from_file
#print axioms Verif.C14_no_dot_paths_from_net
#print axioms Verif.C14_dot_path_is_error
#print axioms Verif.C15_each_scanned_once
#print axioms Verif.C15_each_previous_once
#print axioms Verif.C15_classification
#print axioms Verif.C15_walk_meets_hypothesis
#print axioms Verif.C15_replaced_counted_deleted
#print axioms Verif.C16_carried_over_iff
#print axioms Verif.C16_delta_iff
#print axioms Verif.C16_attributes_iff
#print axioms Verif.C16_otherwise_whole
#print axioms Verif.C16_carried_record
#print axioms Verif.C16_relink_sound
#print axioms Verif.C16_relink_record_partial
#print axioms Verif.C16_relink_salt_violated
#print axioms Verif.C16_relink_compression_violated
#print axioms Verif.C17_merge_loses_nothing
#print axioms Verif.C17_merge_sorted
#print axioms Verif.C17_each_path_once_partial
#print axioms Verif.C17_equal_paths_violated
#print axioms Verif.C18_exactly_deletions_removed
#print axioms Verif.C18_failures_removed
#print axioms Verif.C19_session_distinct_partial
#print axioms Verif.C19_until_space_used_partial
#print axioms Verif.C19_avoids_current
#print axioms Verif.C19_exhausted_violated
#print axioms Verif.C19_deleted_reused_violated
#print axioms Verif.C20_resume_above
#print axioms Verif.C20_resume_no_overwrite
#print axioms Verif.C20_text_order
#print axioms Verif.C20_half_received_violated
#print axioms Verif.C21_newest_never_deleted
#print axioms Verif.C21_only_deletable
#print axioms Verif.C21_terminates
#print axioms Verif.C21_no_spurious_error
#print axioms Verif.C21_delete_request
#print axioms Verif.C22_recent_kept_partial
#print axioms Verif.C22_k1_most_recent_kept_partial
#print axioms Verif.C22_k1_most_recent_kept_violated
#print axioms Verif.C22_old_removed
#print axioms Verif.C22_keep_values_checked
#print axioms Verif.C23_generation_keeps_one
#print axioms Verif.C23_thinning_complete
#print axioms Verif.C24_restore_exact
#print axioms Verif.C24_every_entry_restores
#print axioms Verif.C24_backup_completes
#print axioms Verif.C25_deletion_harmless
#print axioms Verif.C25_deletions_harmless
#print axioms Verif.C25_policy_harmless
#print axioms Verif.C26_option
#print axioms Verif.C26_schedule
#print axioms Verif.C26_one_in_k1
#print axioms Verif.C27_rerun_completes_partial
#print axioms Verif.C27_previous_untouched_partial
#print axioms Verif.C27_mixed_compression_violated
#print axioms Verif.C27_mixed_compression_archive_violated
#print axioms Verif.C27_copy_interrupted_violated
#print axioms Verif.C27_link_limit_violated
#print axioms Verif.C28_current_after_recovery_partial
#print axioms Verif.C28_nothing_lost_partial
#print axioms Verif.C28_recovered_in_place_partial
#print axioms Verif.C28_leftover_resumable_partial
#print axioms Verif.C28_only_backup_deleted_violated
#print axioms Verif.C28_delete_beside_interrupted_violated
#print axioms Verif.C29_resume_iff_partial
#print axioms Verif.C29_delete_iff_partial
#print axioms Verif.C29_incomplete_scan_deleted
#print axioms Verif.C29_attempts_bounded
#print axioms Verif.C29_settings_violated
#print axioms Verif.C29_log_repaired_second_time
#print axioms Verif.C30_resume_complete_partial
#print axioms Verif.C30_nothing_repeated_partial
#print axioms Verif.C30_received_kept
#print axioms Verif.C30_kept_entire
#print axioms Verif.C30_lost_unchanged_violated
#print axioms Verif.C31_directories_last
#print axioms Verif.C31_once
#print axioms Verif.C32_latest
#print axioms Verif.C32_all
#print axioms Verif.C32_number
#print axioms Verif.C32_timestamp
#print axioms Verif.C32_none
#print axioms Verif.C32_junk_violated
#print axioms Verif.C32_other_time_violated
#print axioms Verif.C32_failure_lost_violated
#print axioms Verif.C33_selection
#print axioms Verif.C33_error_violated
#print axioms Verif.C33_server_partial
#print axioms Verif.C33_server_violated
#print axioms Verif.C34_quota
#print axioms Verif.C35_time_band
#print axioms Verif.C35_always
#print axioms Verif.C35_interval
#print axioms Verif.C35_run_iff
#print axioms Verif.C36_authorised_partial
#print axioms Verif.C36_right_password_accepted
#print axioms Verif.C36_client_name
#print axioms Verif.C36_crypt_failure_violated
#print axioms Verif.C37_allowed
#print axioms Verif.C37_bad_entry
#print axioms Verif.C38_add_uniq
#print axioms Verif.C38_history_uniq
#print axioms Verif.C38_add_sorted
#print axioms Verif.C38_add_unsorted
#print axioms Verif.C38_find
#print axioms Verif.C39_granted_iff
#print axioms Verif.C39_permissions
#print axioms Verif.C39_no_escalation
#print axioms Verif.C39_listed_partial
#print axioms Verif.C39_chain_violated
#print axioms Verif.C40_name_partial
#print axioms Verif.C40_name_iff
#print axioms Verif.C40_empty_name_violated
#print axioms Verif.C41_longest_partial
#print axioms Verif.C41_no_directory_violated
#print axioms Verif.C41_included_partial
#print axioms Verif.C41_configured_partial
#print axioms Verif.C42_start_dirs
#print axioms Verif.C43_exact
#print axioms Verif.C43_same
#print axioms Verif.C43_ordered
#print axioms Verif.C43_backups
#print axioms Verif.C43_backups_found
#print axioms Verif.C43_text_partial
#print axioms Verif.C43_text_violated
#print axioms Verif.C43_other_changes
#print axioms Verif.C44_children
#print axioms Verif.C44_parents_are_directories
#print axioms Verif.C44_regex
#print axioms Verif.C44_all
#print axioms Verif.C44_not_found
#print axioms Verif.C44_trailing_slash
#print axioms Verif.C44_doubled_slash_violated
#print axioms Verif.C45_content
#print axioms Verif.C45_view
#print axioms Verif.C45_max_links
#print axioms Verif.C45_deletion
#print axioms Verif.C45_dry_run
#print axioms Verif.C45_skips
#print axioms Verif.C45_read_error_violated
#print axioms Verif.C46_scan
#print axioms Verif.C46_target_sent
#print axioms Verif.C47_counts
#print axioms Verif.C47_totals
#print axioms Verif.C47_scanned
#print axioms Verif.C47_file_changed_violated
#print axioms Verif.C47_bytes
#print axioms Verif.C47_deleted_row_violated
#print axioms Verif.C47_printed
#print axioms Verif.C47_stats
#print axioms Verif.C47_warnings
#print axioms Verif.C48_exact
#print axioms Verif.C48_only_first
#print axioms Verif.C48_truncated_partial
#print axioms Verif.C48_truncated_violated
#print axioms Verif.C48_dump
#print axioms Verif.C48_dump_truncated
#print axioms Verif.C48_pieces_partial
#print axioms Verif.C48_cut_at_header_violated
#print axioms Verif.C48_cut_at_header_fails
#print axioms Verif.C48_write_error_violated
#print axioms Verif.C49_names_partial
#print axioms Verif.C49_fresh_partial
#print axioms Verif.C49_owners_partial
#print axioms Verif.C49_modes_partial
#print axioms Verif.C49_dotdot_violated
#print axioms Verif.C49_chmod_violated
#print axioms Verif.C49_acl_violated
#print axioms Verif.C49_hard_link_violated
#print axioms Verif.C49_in_place_violated
#print axioms Verif.C49_metadata_violated
#print axioms Verif.C49_socket_violated
#print axioms Verif.C50_discard
#print axioms Verif.C50_in_step
#print axioms Verif.C50_complete
#print axioms Verif.C50_ends
#print axioms Verif.C50_same_datapth_violated
#print axioms Verif.C50_read_error_violated
#print axioms Verif.C50_backup_partial
#print axioms Verif.C50_senders
#print axioms Verif.C50_backup_read_error_violated
#print axioms Verif.C50_signature
#print axioms Verif.C50_delta_read_error_violated
#print axioms Verif.C51_value_partial
#print axioms Verif.C51_misplaced_violated
#print axioms Verif.C51_single_violated
#print axioms Verif.C51_ext
#print axioms Verif.C51_path
#print axioms Verif.C51_name
#print axioms Verif.C51_size
#print axioms Verif.C51_excluded
#print axioms Verif.C51_manual_violated
#print axioms Verif.C51_short_group_violated
#print axioms Verif.C51_double_not_violated
#print axioms Verif.C52_quoted
#print axioms Verif.C52_unquoted
#print axioms Verif.C52_reset
#print axioms Verif.C52_blank
#print axioms Verif.C52_no_equals
#print axioms Verif.C52_outside_violated
#print axioms Verif.C53_components
#print axioms Verif.C53_text
#print axioms Verif.C53_empty
#print axioms Verif.C53_plain
#print axioms Verif.C53_separators_violated
#print axioms Verif.C54_exclusive_partial
#print axioms Verif.C54_free_again
#print axioms Verif.C54_race_violated
#print axioms Verif.C54_test_refuses_violated
#print axioms Verif.C54_locked_out
#print axioms Verif.C54_lock_first
#print axioms Verif.C55_permission
#print axioms Verif.C55_as_asked
#print axioms Verif.C55_unknown
#print axioms Verif.C55_old_delete
#print axioms Verif.C55_list_done
#print axioms Verif.C55_refused_delete_recovers_violated
#print axioms Verif.C56_number_increases_partial
#print axioms Verif.C56_listed_oldest_first_partial
#print axioms Verif.C56_ages_partial
#print axioms Verif.C56_ten_million_violated
#print axioms Verif.C57_intact
#print axioms Verif.C57_stored
#print axioms Verif.C57_end_marker
#print axioms Verif.C57_reported
#print axioms Verif.C57_accepted
#print axioms Verif.C57_accepted_encrypted
#print axioms Verif.C57_truncated_violated
#print axioms Verif.C57_short_write_violated
#print axioms Verif.C57_receive_a_file_violated
#print axioms Verif.C57_read_error_violated
#print axioms Verif.C58_digest
#print axioms Verif.C58_corruption_partial
#print axioms Verif.C58_intact_passes
#print axioms Verif.C58_told
#print axioms Verif.C58_length_violated
#print axioms Verif.C58_counted_violated
#print axioms Verif.C58_crash_violated
#print axioms Verif.C59_path
#print axioms Verif.C59_relocated
#print axioms Verif.C59_order
#print axioms Verif.C59_data
#print axioms Verif.C59_numbered
#print axioms Verif.C59_manifest_partial
#print axioms Verif.C59_not_seeded
#print axioms Verif.C59_hardlink_violated
#print axioms Verif.C59_outside_violated
#print axioms Verif.C59_start_dirs
#print axioms Verif.C59_setup
#print axioms Verif.C59_both
#print axioms Verif.C60_size_partial
#print axioms Verif.C60_unknown_suffix
#print axioms Verif.C60_overflow_violated
#print axioms Verif.C60_logic_violated
#print axioms Verif.C61_include_ext
#print axioms Verif.C61_exclude_ext
#print axioms Verif.C61_exclude_comp
#print axioms Verif.C62_scan_partial
#print axioms Verif.C62_nested_violated
#print axioms Verif.C63_size_limits
#print axioms Verif.C64_hardlink_partial
#print axioms Verif.C64_header_violated
#print axioms Verif.C65_daemon_violated
#print axioms Verif.C65_exclusive_partial
#print axioms Verif.C66_fits
#print axioms Verif.C66_round_trip_partial
#print axioms Verif.C66_tab_violated
#print axioms Verif.C66_status
#print axioms Verif.C66_working
#print axioms Verif.C67_strip
#print axioms Verif.C67_left_out
#print axioms Verif.C67_absolute_partial
#print axioms Verif.C67_first_violated
#print axioms Verif.C67_from
#print axioms Verif.C68_kept_partial
#print axioms Verif.C68_data_partial
#print axioms Verif.C68_fifo_violated
#print axioms Verif.C68_link_violated
#print axioms Verif.Session.C69_restores_what_was_there
#print axioms Verif.Session.C69_nothing_missing
#print axioms Verif.Session.C69_manifests_in_order
#print axioms Verif.Session.C69_completes
#print axioms Verif.Session.C69_allocator_is_good
#print axioms Verif.C70_served_partial
#print axioms Verif.C70_revoked
#print axioms Verif.C70_signed
#print axioms Verif.C70_not_signed
#print axioms Verif.C70_never_replaced_partial
#print axioms Verif.C70_one_per_name_partial
#print axioms Verif.C70_serials
#print axioms Verif.C70_subject_violated
#print axioms Verif.C70_nul_violated
#print axioms Verif.C70_race_violated
#print axioms Verif.C71_value
#print axioms Verif.C71_order_partial
#print axioms Verif.C71_malformed
#print axioms Verif.C71_hundred_violated
#print axioms Verif.C71_text_violated
#print axioms Verif.C72_children_partial
#print axioms Verif.C72_room
#print axioms Verif.C72_backups_partial
#print axioms Verif.C72_reload_violated
#print axioms Verif.C72_parallel_violated
#print axioms Verif.C73_client_value
#print axioms Verif.C73_own_value
#print axioms Verif.C73_name
#print axioms Verif.C73_client_list
#print axioms Verif.C73_restore_clients
#print axioms Verif.C73_server_script
#print axioms Verif.C73_global
#print axioms Verif.C73_notify_violated
#print axioms Verif.C73_twice_violated
#print axioms Verif.C73_reset_violated
#print axioms Verif.C73_yes_violated
#print axioms Verif.C73_unknown_violated
#print axioms Verif.C73_file_value
#print axioms Verif.C73_file_list
#print axioms Verif.C73_ports
#print axioms Verif.C73_listen
#print axioms Verif.C73_client_scripts
#print axioms Verif.C74_restore_refused
#print axioms Verif.C74_includes_refused
#print axioms Verif.C74_prefix
#print axioms Verif.C74_script_violated
#print axioms Verif.C74_rights_violated
#print axioms Verif.C75_includes
#print axioms Verif.C75_restore
#print axioms Verif.C75_own_excludes_violated
#print axioms Verif.C75_include_excluded_violated
#print axioms Verif.C75_spaces_violated
#print axioms Verif.C75_quotes_violated
#print axioms Verif.C76_agree
#print axioms Verif.C76_finite
#print axioms Verif.C76_succeeds_iff
#print axioms Verif.C76_any_hash
#print axioms Verif.C76_any_end
#print axioms Verif.C76_any_connected
#print axioms Verif.C76_any_rights
#print axioms Verif.C76_refused_violated
#print axioms Verif.C77_asked_partial
#print axioms Verif.C77_number
#print axioms Verif.C77_latest
#print axioms Verif.C77_all
#print axioms Verif.C77_diff
#print axioms Verif.C77_list_names
#print axioms Verif.C77_list_contents
#print axioms Verif.C77_list_number
#print axioms Verif.C77_list_current
#print axioms Verif.C77_delete
#print axioms Verif.C77_stamp_violated
#print axioms Verif.C77_long_violated
#print axioms Verif.C77_junk_violated
#print axioms Verif.C78_zero_partial
#print axioms Verif.C78_zero_conv
#print axioms Verif.C78_order
#print axioms Verif.C78_asked
#print axioms Verif.C78_pre
#print axioms Verif.C78_post
#print axioms Verif.C78_codes
#print axioms Verif.C78_level
#print axioms Verif.C78_reconnect
#print axioms Verif.C78_servers
#print axioms Verif.C78_contacts
#print axioms Verif.C78_exit_partial
#print axioms Verif.C78_setup_violated
#print axioms Verif.C78_resume_violated
#print axioms Verif.C78_again_violated
#print axioms Verif.C78_unrun_violated
#print axioms Verif.C78_args_violated
#print axioms Verif.C79_request
#print axioms Verif.C79_overview
#print axioms Verif.C79_private_partial
#print axioms Verif.C79_named
#print axioms Verif.C79_log
#print axioms Verif.C79_named_violated
#print axioms Verif.C79_colon_violated
#print axioms Verif.C79_crash_violated
#print axioms Verif.C79_global_violated
#print axioms Verif.C79_included_violated
#print axioms Verif.C79_regranted_violated
#print axioms Verif.C79_backups
#print axioms Verif.C79_answered
#print axioms Verif.C79_running
#print axioms Verif.C79_counters
#print axioms Verif.C80_listing
#print axioms Verif.C80_file_partial
#print axioms Verif.C80_top
#print axioms Verif.C80_all
#print axioms Verif.C80_remembered_partial
#print axioms Verif.C80_same_names
#print axioms Verif.C80_kinds
#print axioms Verif.C80_absent_violated
#print axioms Verif.C80_mode_violated
#print axioms Verif.C80_included_violated
#print axioms Verif.C80_stale_violated
#print axioms Verif.C80_root_violated
#print axioms Verif.C81_kept
#print axioms Verif.C81_all_set
#print axioms Verif.C81_restored
#print axioms Verif.C81_noticed
#print axioms Verif.C81_cut
#print axioms Verif.C81_unknown
#print axioms Verif.C81_bsd_partial
#print axioms Verif.C81_settings_violated
#print axioms Verif.C81_stop_violated
#print axioms Verif.C81_inherit_violated
#print axioms Verif.C81_dir_stale_violated
#print axioms Verif.C81_bsd_violated
#print axioms Verif.C82_upgraded
#print axioms Verif.C82_made
#print axioms Verif.C82_left_alone
#print axioms Verif.C82_not_asked
#print axioms Verif.C82_only_if_told
#print axioms Verif.C82_offered_partial
#print axioms Verif.C82_answered
#print axioms Verif.C82_whole_partial
#print axioms Verif.C82_cut_violated
#print axioms Verif.C82_parent_violated
#print axioms Verif.C82_session_violated
#print axioms Verif.C82_directory_violated
#print axioms Verif.C82_exit_violated
#print axioms Verif.C82_empty_violated
#print axioms Verif.C83_pre_stops
#print axioms Verif.C83_course
#print axioms Verif.C83_failure_told
#print axioms Verif.C83_success_told
#print axioms Verif.C83_outcome
#print axioms Verif.C83_no_false_alarm
#print axioms Verif.C83_success_true_partial
#print axioms Verif.C83_not_met
#print axioms Verif.C83_trouble_told
#print axioms Verif.C83_timer_told
#print axioms Verif.C83_script_failed
#print axioms Verif.C83_busy
#print axioms Verif.C83_action
#print axioms Verif.C83_check_violated
#print axioms Verif.C83_refused_violated
#print axioms Verif.C83_turned_away_violated
#print axioms Verif.C83_failovers_violated
#print axioms Verif.C83_delete_violated
#print axioms Verif.C83_finalised_violated
#print axioms Verif.C83_args_violated
#print axioms Verif.C83_args_partial
#print axioms Verif.C84_settings
#print axioms Verif.C84_left_alone
#print axioms Verif.C84_refused
#print axioms Verif.C84_got
#print axioms Verif.C84_named_partial
#print axioms Verif.C84_again
#print axioms Verif.C84_conf_whole
#print axioms Verif.C84_prefix_violated
#print axioms Verif.C84_missing_violated
#print axioms Verif.C84_inject_violated
#print axioms Verif.C84_removed_violated
#print axioms Verif.C84_interrupted_violated
#print axioms Verif.C85_not_early
#print axioms Verif.C85_any_clock
#print axioms Verif.C85_in_time
#print axioms Verif.C85_off
#print axioms Verif.C85_pause_violated
#print axioms Verif.C86_rate
#print axioms Verif.C86_total
#print axioms Verif.C86_goes_on
#print axioms Verif.C86_set_back
#print axioms Verif.C86_pause
#print axioms Verif.C86_unlimited
#print axioms Verif.C86_first_second_violated
#print axioms Verif.C86_made_up_violated
#print axioms Verif.C86_clock_violated
#print axioms Verif.C86_negative_violated
#print axioms Verif.C87_nothing_inside
#print axioms Verif.C87_in_order
#print axioms Verif.C87_no_stall
#print axioms Verif.C87_delivered
#print axioms Verif.C87_other_peer
#print axioms Verif.C88_names
#print axioms Verif.C88_nothing
#print axioms Verif.C88_contents
#print axioms Verif.C88_parseable
#print axioms Verif.C88_restore
#print axioms Verif.C88_directory
#print axioms Verif.C88_mode
#print axioms Verif.C88_kind
#print axioms Verif.C88_cut
#print axioms Verif.C88_cut_violated
#print axioms Verif.C88_memory_violated
#print axioms Verif.C88_parseable_violated
#print axioms Verif.C88_arrow_violated
#print axioms Verif.C88_empty_violated
#print axioms Verif.C88_lines_violated
#print axioms Verif.C89_nothing_else
#print axioms Verif.C89_success
#print axioms Verif.C89_works
#print axioms Verif.C89_dirs_only
#print axioms Verif.C89_empty_directories
#print axioms Verif.C89_aside
#print axioms Verif.C89_deleted
#print axioms Verif.C89_unseen_violated
#print axioms Verif.C89_link_violated
#print axioms Verif.C89_stops_violated
#print axioms Verif.C89_long_name_violated
#print axioms Verif.C89_moved
#print axioms Verif.C89_aside_works
#print axioms Verif.C89_deleted_works
#print axioms Verif.C89_moved_works
#print axioms Verif.C90_written
#print axioms Verif.C90_going
#print axioms Verif.C90_delta_messages
#print axioms Verif.C90_ends
#print axioms Verif.C90_signature_loaded
#print axioms Verif.C90_no_overflow
#print axioms Verif.C90_changed_file
#print axioms Verif.C90_own_messages_fit
#print axioms Verif.C90_overflow_violated
#print axioms Verif.C90_block_length
#print axioms Verif.C91_attributes
#print axioms Verif.C91_others_left
#print axioms Verif.C91_special_made
#print axioms Verif.C91_hard_link
#print axioms Verif.C91_not_root_violated
#print axioms Verif.C91_special_violated
#print axioms Verif.C91_directory_first_violated
#print axioms Verif.C92_compress_safe
#print axioms Verif.C92_compress_result
#print axioms Verif.C92_inflate
#print axioms Verif.C92_round_trip
#print axioms Verif.C92_truncate
#print axioms Verif.C92_read_ensure
#print axioms Verif.C92_printf_grows
#print axioms Verif.C92_compress_violated
#print axioms Verif.C92_inflate_violated
#print axioms Verif.C92_cut_short_violated
#print axioms Verif.C92_read_hangs_violated
#print axioms Verif.C93_answer_partial
#print axioms Verif.C93_log
#print axioms Verif.C93_warning
#print axioms Verif.C93_selection
#print axioms Verif.C93_history
#print axioms Verif.C93_merge_partial
#print axioms Verif.C93_back_partial
#print axioms Verif.C93_server_says
#print axioms Verif.C93_backups_violated
#print axioms Verif.C93_back_violated
#print axioms Verif.C93_deleted_violated
#print axioms Verif.C93_key_violated
#print axioms Verif.C93_order_violated
#print axioms Verif.C93_answers_violated
#print axioms Verif.C94_string
#print axioms Verif.C94_roundtrip
#print axioms Verif.C94_injective
#print axioms Verif.C94_chunks
#print axioms Verif.C94_defined_partial
#print axioms Verif.C94_number_partial
#print axioms Verif.C94_wellformed
#print axioms Verif.C94_lines
#print axioms Verif.C94_answers
#print axioms Verif.C94_server_partial
#print axioms Verif.C94_message_partial
#print axioms Verif.C94_defined_violated
#print axioms Verif.C94_least_violated
#print axioms Verif.C94_lines_violated
#print axioms Verif.C94_message_violated
#print axioms Verif.C95_depth
#print axioms Verif.C95_reached
#print axioms Verif.C95_metadata
#print axioms Verif.C95_entries_partial
#print axioms Verif.C95_complete_partial
#print axioms Verif.C95_directories_partial
#print axioms Verif.C95_unread
#print axioms Verif.C95_raises
#print axioms Verif.C95_list
#print axioms Verif.C95_no_list
#print axioms Verif.C95_kinds
#print axioms Verif.C95_vanished_violated
#print axioms Verif.C95_lost_violated
#print axioms Verif.C95_twice_violated
#print axioms Verif.C95_unopened_violated
#print axioms Verif.C95_ordered_partial
#print axioms Verif.C95_wanted_partial
#print axioms Verif.C96_spelled
#print axioms Verif.C96_unique
#print axioms Verif.C96_line
#print axioms Verif.C96_refused
#print axioms Verif.C96_first
#print axioms Verif.C96_client
#print axioms Verif.C96_server
#print axioms Verif.C96_delete
#print axioms Verif.C96_request
#print axioms Verif.C96_order
#print axioms Verif.C96_code_partial
#print axioms Verif.C96_action_violated
#print axioms Verif.C96_help_violated
#print axioms Verif.C96_test_violated
#print axioms Verif.C96_delay_violated
#print axioms Verif.C97_scan_partial
#print axioms Verif.C97_listed_partial
#print axioms Verif.C97_storage_partial
#print axioms Verif.C97_restores_partial
#print axioms Verif.C97_nothing_else_partial
#print axioms Verif.C97_completes_partial
#print axioms Verif.C98_outcome_partial
#print axioms Verif.C98_all_answered_partial
#print axioms Verif.C98_ends
#print axioms Verif.C98_stuck_partial
#print axioms Verif.C98_completes_partial
#print axioms Verif.C98_stall_violated
#print axioms Verif.C99_outcome_partial
#print axioms Verif.C99_all_read_partial
#print axioms Verif.C99_ends
#print axioms Verif.C99_stuck_partial
#print axioms Verif.C99_completes_partial
#print axioms Verif.C99_stall_violated
#print axioms Verif.C100_unnoticed_partial
#print axioms Verif.C100_nothing_else_partial
#print axioms Verif.C100_kept_partial
#print axioms Verif.C100_hands_off_partial
#print axioms Verif.C100_finished_backup_violated
#print axioms Verif.C100_new_backup_violated
#print axioms Verif.C101_lines_partial
#print axioms Verif.C101_unique
#print axioms Verif.C101_started_partial
#print axioms Verif.C101_endless_partial
#print axioms Verif.C101_long_violated
#print axioms Verif.C101_root_violated
#print axioms Verif.C101_name_violated
#print axioms Verif.C102_starts
#print axioms Verif.C102_unchanged
#print axioms Verif.C102_server
#print axioms Verif.C102_client_partial
#print axioms Verif.C102_peer_violated
#print axioms Verif.C102_client_file_violated
#print axioms Verif.C103_tree
#print axioms Verif.C103_where
#print axioms Verif.C103_stored_partial
#print axioms Verif.C103_limits
#print axioms Verif.C103_refused
#print axioms Verif.C103_long_path_violated
#print axioms Verif.C103_short_names_violated
#print axioms Verif.C104_listed_partial
#print axioms Verif.C104_order
#print axioms Verif.C104_numbers
#print axioms Verif.C104_current_partial
#print axioms Verif.C104_short_names
#print axioms Verif.C104_long_names_violated
#print axioms Verif.C104_long_path_violated
#print axioms Verif.C105_restored_partial
#print axioms Verif.C105_last_partial
#print axioms Verif.C105_encrypted
#print axioms Verif.C105_hard_link_violated
#print axioms Verif.C105_uncompressed_violated
#print axioms Verif.C105_salt_violated
#print axioms Verif.C105_password_violated
#print axioms Verif.C105_compression_violated
#print axioms Verif.C106_stopped_only
#print axioms Verif.C106_goes_on
#print axioms Verif.C106_in_time_band
#print axioms Verif.C106_checked
#print axioms Verif.C106_asked_partial
#print axioms Verif.C106_begins
#print axioms Verif.C106_asked_violated
#print axioms Verif.C106_check_violated
#print axioms Verif.C106_status_lines
#print axioms Verif.C106_status_gap
#print axioms Verif.C106_status_sent
#print axioms Verif.C107_counts
#print axioms Verif.C107_bytes_partial
#print axioms Verif.C107_bytes_violated
#print axioms Verif.C107_warnings_violated
#print axioms Verif.C108_readable
#print axioms Verif.C108_rows_readable
#print axioms Verif.C108_kept
#print axioms Verif.C108_counters
#print axioms Verif.C108_lengths
#print axioms Verif.C108_works
#print axioms Verif.C108_paths
#print axioms Verif.C108_complete_partial
#print axioms Verif.C109_order
#print axioms Verif.C109_heard
#print axioms Verif.C109_all_heard
#print axioms Verif.C109_goes_on
#print axioms Verif.C109_gentle_partial
#print axioms Verif.C109_gentle_ends
#print axioms Verif.C109_stays
#print axioms Verif.C109_list
#print axioms Verif.C109_names
#print axioms Verif.C109_list_line
#print axioms Verif.C109_list_due
#print axioms Verif.C109_list_clock
#print axioms Verif.C109_no_name
#print axioms Verif.C109_list_apart
#print axioms Verif.C109_fork_violated
#print axioms Verif.C109_reload_then_end_violated
#print axioms Verif.C109_end_then_reload_violated
#print axioms Verif.C109_gentle_accepts_violated
#print axioms Verif.C110_output
#print axioms Verif.C110_so_far
#print axioms Verif.C110_buffer
#print axioms Verif.C110_buffer_both
#print axioms Verif.C110_error
#print axioms Verif.C110_lines
#print axioms Verif.C110_pieces
#print axioms Verif.C110_logged
#print axioms Verif.C110_waits
#print axioms Verif.C110_returns
#print axioms Verif.C110_code
#print axioms Verif.C110_several
#print axioms Verif.C110_warnings
#print axioms Verif.C110_args
#print axioms Verif.C110_background_violated
#print axioms Verif.C110_nul_violated
#print axioms Verif.C110_long_line_violated
#print axioms Verif.C110_args_violated
#print axioms Verif.C110_stale_violated
#print axioms Verif.C111_complete_partial
#print axioms Verif.C111_progress_partial
#print axioms Verif.C111_not_unscanned_partial
#print axioms Verif.C111_outcomes
#print axioms Verif.C111_kept
#print axioms Verif.C111_untouched
#print axioms Verif.C111_removed_only
#print axioms Verif.C111_told_partial
#print axioms Verif.C111_window_lost_violated
#print axioms Verif.C111_window_deleted_violated
#print axioms Verif.C111_told_then_deleted_violated
#print axioms Verif.C111_client_not_told_violated
#print axioms Verif.C111_removal_violated
#print axioms Verif.C112_refused
#print axioms Verif.C112_help
#print axioms Verif.C112_only
#print axioms Verif.C112_storage
#print axioms Verif.C112_lock_path
#print axioms Verif.C112_failure
#print axioms Verif.C112_delete
#print axioms Verif.C112_links
#print axioms Verif.C112_limit
#print axioms Verif.C112_locked
#print axioms Verif.C112_global
#print axioms Verif.C112_exclusive
#print axioms Verif.C112_all_partial
#print axioms Verif.C112_args_partial
#print axioms Verif.C112_bad_client_violated
#print axioms Verif.C112_empty_argument_violated
#print axioms Verif.C112_no_link_violated
#print axioms Verif.C112_negative_violated
#print axioms Verif.C112_stops_violated
#print axioms Verif.C113_user
#print axioms Verif.C113_group
#print axioms Verif.C113_runs_partial
#print axioms Verif.C113_readall
#print axioms Verif.C113_no_return
#print axioms Verif.C113_not_asked
#print axioms Verif.C113_unknown
#print axioms Verif.C113_ordinary
#print axioms Verif.C113_ordinary_served
#print axioms Verif.C113_child_user
#print axioms Verif.C113_child_same
#print axioms Verif.C113_child_own_partial
#print axioms Verif.C113_user_only_violated
#print axioms Verif.C113_user_only_server_violated
#print axioms Verif.C113_groups_kept_violated
#print axioms Verif.C113_child_groups_violated
#print axioms Verif.C113_override_violated
#print axioms Verif.C113_effective_violated
#print axioms Verif.C114_off
#print axioms Verif.C114_no_dir
#print axioms Verif.C114_ca_dir
#print axioms Verif.C114_ready
#print axioms Verif.C114_existing
#print axioms Verif.C114_once
#print axioms Verif.C114_all_or_nothing
#print axioms Verif.C114_only
#print axioms Verif.C114_cut_partial
#print axioms Verif.C114_crash_violated
#print axioms Verif.C114_link_violated
#print axioms Verif.C114_lost_violated
#print axioms Verif.C114_crl_violated
#print axioms Verif.C115_one_writer
#print axioms Verif.C115_one_reader
#print axioms Verif.C115_locks
#print axioms Verif.C115_ends
#print axioms Verif.C115_writer_served
#print axioms Verif.C115_whole_partial
#print axioms Verif.C115_list_partial
#print axioms Verif.C115_restored_partial
#print axioms Verif.C115_restored_whole
#print axioms Verif.C115_removed_violated
#print axioms Verif.C115_list_violated
#print axioms Verif.C115_unlinked_violated
#print axioms Verif.C116_places
#print axioms Verif.C116_backups
#print axioms Verif.C116_lock
#print axioms Verif.C116_deleteme
#print axioms Verif.C116_unset
#print axioms Verif.C116_apart_partial
#print axioms Verif.C116_locks_apart
#print axioms Verif.C116_lock_outside
#print axioms Verif.C116_distinct
#print axioms Verif.C116_resumed
#print axioms Verif.C116_backups_apart
#print axioms Verif.C116_manual_violated
#print axioms Verif.C116_nested_violated
#print axioms Verif.C116_format_violated
#print axioms Verif.C117_split
#print axioms Verif.C117_parted
#print axioms Verif.C117_listens_partial
#print axioms Verif.C117_nowhere_else
#print axioms Verif.C117_starts
#print axioms Verif.C117_one_bad
#print axioms Verif.C117_admits
#print axioms Verif.C117_unreadable
#print axioms Verif.C117_activated
#print axioms Verif.C117_strange
#print axioms Verif.C117_activated_kind_partial
#print axioms Verif.C117_unwatched_violated
#print axioms Verif.C117_networks_violated
#print axioms Verif.C117_same_port_violated
#print axioms Verif.C117_no_socket_violated
#print axioms Verif.C118_kept
#print axioms Verif.C118_whole
#print axioms Verif.C118_always_one
#print axioms Verif.C118_goes_on
#print axioms Verif.C118_again
#print axioms Verif.C118_failed_gone
#print axioms Verif.C118_recovered_violated
#print axioms Verif.C119_names
#print axioms Verif.C119_exact_partial
#print axioms Verif.C119_shape
#print axioms Verif.C119_old_or_new
#print axioms Verif.C119_failure
#print axioms Verif.C119_errors
#print axioms Verif.C119_left_over_violated
#print axioms Verif.C119_short_violated
#print axioms Verif.C119_signal_violated
#print axioms Verif.C120_place
#print axioms Verif.C120_found
#print axioms Verif.C120_new
#print axioms Verif.C120_failure
#print axioms Verif.C120_confined_partial
#print axioms Verif.C120_absolute
#print axioms Verif.C120_root_partial
#print axioms Verif.C120_stripped_violated
#print axioms Verif.C121_shown
#print axioms Verif.C121_sent
#print axioms Verif.C121_exact
#print axioms Verif.C121_arrives_partial
#print axioms Verif.C121_room
#print axioms Verif.C121_taken
#print axioms Verif.C121_end_violated
#print axioms Verif.C121_long_violated
#print axioms Verif.C122_kept
#print axioms Verif.C122_counted
#print axioms Verif.C122_file
#print axioms Verif.C122_no_file
#print axioms Verif.C122_set
#print axioms Verif.C122_estimate
#print axioms Verif.C122_message
#print axioms Verif.C122_lines_partial
#print axioms Verif.C122_long_violated
#print axioms Verif.C122_forged_violated
#print axioms Verif.C123_time_partial
#print axioms Verif.C123_time_distinct
#print axioms Verif.C123_unit
#print axioms Verif.C123_near
#print axioms Verif.C123_size_partial
#print axioms Verif.C123_size_violated
#print axioms Verif.C124_std
#print axioms Verif.C124_closed_partial
#print axioms Verif.C124_high_violated
#print axioms Verif.C124_inherit_partial
#print axioms Verif.C124_loop_violated
#print axioms Verif.C124_parent
#print axioms Verif.C124_leak_violated
#print axioms Verif.C124_ends
#print axioms Verif.C124_eof_partial
#print axioms Verif.C125_safe
#print axioms Verif.C125_shell
#print axioms Verif.C125_issuer
#print axioms Verif.C125_subject
#print axioms Verif.C125_dates
#print axioms Verif.C125_dates_text
#print axioms Verif.C125_cn_partial
#print axioms Verif.C125_cn_violated
#print axioms Verif.C125_alike_violated
#print axioms Verif.C126_equal_partial
#print axioms Verif.C126_missing
#print axioms Verif.C126_error
#print axioms Verif.C126_error_violated
#print axioms Verif.C126_unopened_violated
#print axioms Verif.C127_text_partial
#print axioms Verif.C127_escape_violated
#print axioms Verif.C127_forged_violated
#print axioms Verif.C127_length
#print axioms Verif.C127_distinct
#print axioms Verif.C127_binary
#print axioms Verif.C127_binary_said
#print axioms Verif.C128_read_partial
#print axioms Verif.C128_fixed
#print axioms Verif.C128_distinct
#print axioms Verif.C128_autumn_violated
#print axioms Verif.C128_zone_violated
#print axioms Verif.C128_bound
#print axioms Verif.C128_interval
#print axioms Verif.C129_files_partial
#print axioms Verif.C129_dirs
#print axioms Verif.C129_limit
#print axioms Verif.C129_reported
#print axioms Verif.C129_missing_violated
#print axioms Verif.C129_read_violated
#print axioms Verif.C129_flush_violated
#print axioms Verif.C130_mode_partial
#print axioms Verif.C130_default_partial
#print axioms Verif.C130_named
#print axioms Verif.C130_plain
#print axioms Verif.C130_error_violated
#print axioms Verif.C130_entry_violated
