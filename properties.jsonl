{"id": "C01", "title": "Integer fields survive the manifest's base64 encoding", "statement": "Every 64-bit signed number written by the base64 number encoder is read back by the decoder as exactly the same number, whatever field follows it, and the decoder reports having consumed exactly the characters the encoder wrote. The encoding never exceeds the 13-byte buffer the API demands.", "quantifier": "all int64 values except INT64_MIN (whose negation is undefined behaviour in C) and all following text starting with a space or end of string", "why_tests_cant": "2^64 values; off-by-one digit counts and sign handling only show at particular magnitudes", "anchors": ["src/base64.c:to_base64", "src/base64.c:from_base64"]}
{"id": "C02", "title": "File attributes survive a backup and restore", "statement": "The attribute record (device, inode, mode, link count, owner, group, size, times, Windows attributes, compression, encryption, salt, winapi flag) encoded into a manifest decodes to the same values, and the encoded text always fits the 256-byte buffer it is written to. Shorter legacy records decode to the documented defaults.", "quantifier": "all attribute records whose fields are in range", "why_tests_cant": "the product of 19 field domains cannot be enumerated; field order or width mistakes may only affect unusual values", "anchors": ["src/attribs.c:attribs_encode", "src/attribs.c:attribs_decode", "src/base64.c"]}
{"id": "C03", "title": "Path ordering is a strict total order", "statement": "The path comparison used to keep every manifest sorted is a total order on all byte strings: it reports equal only for identical paths, swapping arguments flips the sign, it is transitive, and a missing path sorts before everything. Merge walks over two manifests therefore never disagree about which side is behind.", "quantifier": "all pairs and triples of NUL-free byte strings (including bytes above 127)", "why_tests_cant": "ordering laws quantify over triples of unbounded strings", "anchors": ["src/pathcmp.c:pathcmp"]}
{"id": "C04", "title": "A directory's contents are contiguous and follow it", "statement": "Under the path ordering a directory sorts before everything beneath it, and all paths beneath it form one uninterrupted run: nothing outside the directory can sort between two paths inside it.", "quantifier": "all directories and all triples of paths", "why_tests_cant": "a counter-example needs particular bytes (for example characters below '/') at a particular place", "anchors": ["src/pathcmp.c:pathcmp"]}
{"id": "C05", "title": "Manifest entry ordering is consistent", "statement": "The comparison between manifest entries (path, then record kind for metadata, VSS header and VSS footer records that share a path) is a consistent ordering, so that phase 2 and phase 3 walk two manifests in step.", "quantifier": "all pairs and triples of manifest entries", "why_tests_cant": "needs every combination of record kinds, on unbounded paths", "anchors": ["src/iobuf.c:iobuf_pathcmp", "src/sbuf.c:sbuf_pathcmp"]}
{"id": "C06", "title": "Subdirectory test is exact", "statement": "The subdirectory test reports true exactly when the second path equals the first or lies beneath it at a path separator; a name that merely shares a prefix is not a subdirectory.", "quantifier": "all pairs of paths", "why_tests_cant": "boundary cases at the separator and at end of string on unbounded paths", "anchors": ["src/pathcmp.c:is_subdir"]}
{"id": "C07", "title": "Dot components are always detected", "statement": "The path-attack check reports true exactly when some '/'-separated component of the path is '.' or '..'.", "quantifier": "all paths", "why_tests_cant": "a missed position (start, middle, end) is a path traversal hole and there are unboundedly many positions", "anchors": ["src/pathcmp.c:has_dot_component", "src/pathcmp.c:is_absolute"]}
{"id": "C08", "title": "Manifest records round-trip", "statement": "Any sequence of records written to a manifest file is read back as exactly that sequence, followed by a clean end of file, whatever bytes the payloads contain (including newlines). A payload longer than 65535 bytes is refused rather than written in an unreadable way.", "quantifier": "all sequences of records, all payloads", "why_tests_cant": "payload contents and lengths are unbounded; framing confusion depends on specific bytes", "anchors": ["src/msg.c:send_msg_fzp", "src/iobuf.c:iobuf_fill_from_fzp"]}
{"id": "C09", "title": "Manifest entries round-trip", "statement": "Any list of manifest entries (files with data path and end marker, directories, soft and hard links, special files, metadata and VSS records) written to a manifest is read back as exactly the same list of entries.", "quantifier": "all lists of well-formed entries", "why_tests_cant": "the parser is a state machine over record kinds; all sequences of kinds must be covered", "anchors": ["src/sbuf.c:sbuf_to_manifest", "src/sbuf.c:sbuf_fill_from_file"]}
{"id": "C10", "title": "A truncated manifest never invents an entry", "statement": "If a manifest is cut at any byte, reading it yields a prefix of the original entries and then stops; no entry that was never written is ever returned. (Ideally the truncation is reported as an error.)", "quantifier": "all manifests and all truncation points", "why_tests_cant": "every byte offset of every manifest", "anchors": ["src/iobuf.c:do_iobuf_fill_from_fzp", "src/fzp.c:fzp_read_ensure", "src/sbuf.c:sbuf_fill"]}
{"id": "C11", "title": "Network messages are independent of fragmentation", "statement": "The sequence of messages delivered by the receiver equals the sequence of messages sent, in order and with unchanged payloads, however the network splits the byte stream into reads.", "quantifier": "all message sequences and all ways of splitting the stream into chunks", "why_tests_cant": "exponentially many fragmentations of unbounded streams", "anchors": ["src/asfd.c:parse_readbuf_standard", "src/asfd.c:asfd_parse_readbuf", "src/asfd.c:append_to_write_buffer"]}
{"id": "C12", "title": "The network read buffer never overflows", "statement": "No peer can make the receiver store more bytes than its buffer holds, and a frame that announces a length the buffer cannot hold is rejected as an error instead of waiting for ever.", "quantifier": "all byte streams from an arbitrary peer, all fragmentations and interleavings of read and parse steps", "why_tests_cant": "adversarial streams are unbounded", "anchors": ["src/asfd.c:asfd_do_read", "src/asfd.c:parse_readbuf_standard", "src/asfd.c:extract_buf"]}
{"id": "C13", "title": "The write buffer never overflows and is never reordered", "statement": "Messages appended to the outgoing buffer are either taken whole or refused as blocked with no partial effect; the bytes that reach the socket are exactly the frames of the accepted messages in order, for any pattern of partial writes.", "quantifier": "all sequences of append attempts and partial socket writes", "why_tests_cant": "all interleavings of appends and short writes", "anchors": ["src/asfd.c:asfd_append_all_to_write_buffer", "src/asfd.c:asfd_do_write"]}
{"id": "C14", "title": "Received manifest entries cannot escape the directory tree", "statement": "No entry with a '.' or '..' component in its path or in its data path is ever accepted from the network or from a manifest file.", "quantifier": "all record sequences from an arbitrary peer", "why_tests_cant": "adversarial record sequences are unbounded, including odd orders of records", "anchors": ["src/sbuf.c:parse_cmd", "src/pathcmp.c:has_dot_component"]}
{"id": "C15", "title": "Every scanned file is accounted for exactly once in a backup", "statement": "After the phase-2 walk of the new scan against the previous manifest, every scanned entry is classified exactly once (new, changed or unchanged), every previous entry is either matched or counted as deleted, and nothing else appears.", "quantifier": "all sorted scans and previous manifests", "why_tests_cant": "all interleavings of two unbounded sorted lists", "anchors": ["src/server/backup_phase2.c:process_next_file_from_manios", "src/server/backup_phase2.c:maybe_process_file"]}
{"id": "C16", "title": "An entry is kept unchanged only when it is safe", "statement": "An entry is carried over from the previous backup without any transfer only if its kind is the same and its modification time is unchanged (and, except for plain non-Windows entries, its inode change time too), or if it was a hard link, has the same inode and modification time and the data of the file it was linked to is stored; the entry carried over describes the stored data correctly; every other entry with data is transferred, as a delta only when a delta is permitted.", "quantifier": "all pairs of previous and scanned entries and all settings", "why_tests_cant": "a decision table over many attributes; a missed combination silently loses changes", "anchors": ["src/server/backup_phase2.c:maybe_do_delta_stuff"]}
{"id": "C17", "title": "The final manifest is the sorted union of changed and unchanged entries", "statement": "The merge that produces a backup's manifest outputs every entry of the changed and unchanged lists, in path order, each path once.", "quantifier": "all pairs of sorted lists", "why_tests_cant": "all interleavings of two unbounded lists including equal paths", "anchors": ["src/server/backup_phase3.c:backup_phase3_server_all"]}
{"id": "C18", "title": "Failed files are removed from the manifest and nothing else is", "statement": "Entries that could not be reconstructed while finishing a backup are exactly the entries removed from its manifest; every other entry stays, in order.", "quantifier": "all manifests and all sub-lists of failures", "why_tests_cant": "unbounded lists", "anchors": ["src/server/backup_phase4.c:maybe_delete_files_from_manifest"]}
{"id": "C19", "title": "Storage paths are never reused", "statement": "Within a client's storage every newly stored file gets a storage path different from every path handed out before, until the whole path space is used.", "quantifier": "all numbers of allocations, all starting points and subdirectory limits", "why_tests_cant": "the counter has up to 2^48 states with carries", "anchors": ["src/server/dpth.c:dpth_incr", "src/server/dpth.c:dpth_mk", "src/server/backup_phase2.c:start_to_receive_new_file"]}
{"id": "C20", "title": "Storage path allocation resumes above existing paths", "statement": "After an interruption the allocator is advanced past every path recorded so far, so resumed backups do not overwrite stored data; text form and counter order agree.", "quantifier": "all recorded path strings and counters", "why_tests_cant": "unbounded histories; lexicographic order of text must match numeric order", "anchors": ["src/server/dpth.c:dpth_set_from_string", "src/server/dpth.c:dpth_init", "src/server/resume.c:do_resume_work"]}
{"id": "C21", "title": "Automatic deletion never removes the newest backup, nor a protected one", "statement": "Applying the keep policy never deletes the most recent backup, deletes only backups that are marked deletable at the moment of deletion, and always terminates.", "quantifier": "all backup histories and all keep configurations", "why_tests_cant": "all histories and multi-level keep lists", "anchors": ["src/server/delete.c:delete_backups", "src/server/delete.c:do_delete_backups", "src/server/bu_get.c:setup_indices"]}
{"id": "C22", "title": "Keep values are honoured", "statement": "With keep values k1, k2, ..., the k1 most recent backups are never deleted by the policy, and once the policy has finished no deletable backup older than the product of the keep values remains.", "quantifier": "all histories and keep lists", "why_tests_cant": "depends on products of keep values and long histories", "anchors": ["src/server/delete.c:range_loop", "src/server/delete.c:do_delete_backups", "src/conffile.c:finalise_keep_args"]}
{"id": "C23", "title": "Each generation keeps a representative", "statement": "The multi-level policy never removes the last backup in a generation interval that it is thinning: in every interval at least one backup is left if one was there.", "quantifier": "all histories, all keep lists, all intervals", "why_tests_cant": "long histories and nested ranges", "anchors": ["src/server/delete.c:range_loop"]}
{"id": "C24", "title": "Restore returns the exact content at backup time", "statement": "Restoring a file from any retained backup returns byte-for-byte the content the file had when that backup was made, whatever backups were made later and whether the stored copy is full, a hard link, or a chain of reverse deltas.", "quantifier": "all histories of backups of a file (unchanged, changed by delta, replaced, deleted and re-created) and all retained backups", "why_tests_cant": "unbounded histories and chain lengths", "anchors": ["src/server/restore_sbuf.c:restore_file", "src/server/backup_phase4.c:forward_patch_and_reverse_diff", "src/server/backup_phase4.c:atomic_data_jiggle"]}
{"id": "C25", "title": "Deleting a deletable backup does not damage the others", "statement": "After any sequence of permitted deletions every remaining backup still restores exactly the content it restored before.", "quantifier": "all histories of backups and permitted deletions in any order", "why_tests_cant": "unbounded histories; dependencies through delta chains", "anchors": ["src/server/bu_get.c:setup_indices", "src/server/delete.c:do_delete_server", "src/server/restore_sbuf.c:process_data_dir_file"]}
{"id": "C26", "title": "Archive (hardlinked) backups happen on schedule", "statement": "A backup is stored as an independent hardlinked archive exactly when configured to, or, with several keep values, once every k1 backups; so the distance between restore anchors never exceeds k1.", "quantifier": "all backup numbers and keep lists", "why_tests_cant": "unbounded backup numbers", "anchors": ["src/server/backup_phase4.c:need_hardlinked_archive"]}
{"id": "C27", "title": "Finishing a backup file is crash-safe", "statement": "If the server dies at any point while finalising the stored copy of a file and the finalisation is run again, the end state is the same as an uninterrupted run: the new content is stored, the previous backup can still be restored.", "quantifier": "all crash points, any number of crashes, all combinations of stored files", "why_tests_cant": "crash points multiply with repeated crashes", "anchors": ["src/server/backup_phase4.c:jiggle", "src/server/backup_phase4.c:forward_patch_and_reverse_diff"]}
{"id": "C28", "title": "The 'current' backup is always a complete one", "statement": "At every instant during backup completion and deletion, after a crash and the recovery step of the next connection, 'current' refers to a complete backup whenever one existed.", "quantifier": "all crash points of the rename and symlink sequences", "why_tests_cant": "every interleaving point of file system steps", "anchors": ["src/server/backup.c:do_backup_server", "src/server/rubble.c:check_for_rubble", "src/server/delete.c:delete_backup"]}
{"id": "C29", "title": "Interrupted backups are recovered according to configuration", "statement": "When a previous backup was interrupted, the server resumes it exactly when its scan had completed, the recovery method is resume, the client is the one it was for, the include/exclude settings are the same and the number of attempts is below the limit. It deletes it when the scan had not completed, the method is delete, the settings have changed or no attempts are left. Otherwise it keeps it and refuses the new backup.", "quantifier": "all combinations of leftover state and settings", "why_tests_cant": "combinations of on-disk states", "anchors": ["src/server/rubble.c:recover_working", "src/server/rubble.c:check_for_rubble_and_clean"]}
{"id": "C30", "title": "Resuming loses nothing and repeats nothing", "statement": "A backup interrupted after any number of recorded entries and resumed accounts for exactly the entries an uninterrupted backup would have.", "quantifier": "all scans and all interruption points, repeated interruptions", "why_tests_cant": "every interruption point of every backup", "anchors": ["src/server/resume.c:do_resume", "src/server/resume.c:do_resume_work"]}
{"id": "C31", "title": "Directories are restored after their contents", "statement": "During a restore each directory's attributes are sent after everything beneath it that was selected, and every selected entry is sent exactly once.", "quantifier": "all sorted manifests and selections", "why_tests_cant": "unbounded nested trees", "anchors": ["src/server/restore.c:restore_ent", "src/server/restore.c:restore_remaining_dirs"]}
{"id": "C32", "title": "The requested backup is the one restored", "statement": "A restore request by number, by timestamp, for all backups or with nothing specified selects exactly the documented backup(s), and reports when there is none.", "quantifier": "all request strings and backup lists", "why_tests_cant": "all strings and lists", "anchors": ["src/server/restore.c:do_restore_server"]}
{"id": "C33", "title": "Exactly what was asked for is restored", "statement": "With a restore list (a list of paths in the order of burp's own listing), exactly the entries whose path is on the list are restored; with directories given in a restore file on the server, exactly the entries in one of them.", "quantifier": "all sorted manifests and sorted restore lists", "why_tests_cant": "merge walk over unbounded lists", "anchors": ["src/server/restore.c:restore_list_check", "src/server/restore.c:srestore_matches"]}
{"id": "C34", "title": "Quotas", "statement": "A backup is refused exactly when a hard quota is set and the estimate exceeds it; a soft quota only warns.", "quantifier": "all quota settings and estimates", "why_tests_cant": "boundary values over 64-bit ranges", "anchors": ["src/server/quota.c:check_quota"]}
{"id": "C35", "title": "Timer conditions decide exactly", "statement": "The built-in timer lets a backup run exactly when a manual trigger exists, or the current day and hour are in a configured time band and there is no previous backup or the interval has elapsed since it.", "quantifier": "all intervals, time stamps and time bands", "why_tests_cant": "all times and bands", "anchors": ["src/server/timer.c:run_timer_internal", "src/server/timer.c:check_interval", "src/server/timer.c:check_timebands", "src/server/timer.c:get_interval_in_seconds"]}
{"id": "C36", "title": "Nobody is authorised without the right password", "statement": "A client connection is authorised only if the client is configured and, unless password checking is turned off for it, the supplied password matches the configured one (plain, hashed, or both).", "quantifier": "all client configurations and supplied passwords, including failures of the hashing library", "why_tests_cant": "all configurations and library outcomes", "anchors": ["src/server/auth.c:check_client_and_password", "src/server/auth.c:check_passwd"]}
{"id": "C37", "title": "Address lists match exactly the configured networks", "statement": "An address is accepted by an address list exactly when its family and its leading prefix bits equal those of some configured network; masks beyond the configured prefix never matter and bits inside it always do.", "quantifier": "all IPv4 and IPv6 addresses, all prefixes and lists", "why_tests_cant": "2^32 and 2^128 addresses times prefixes", "anchors": ["src/ipacl.c:ipacl_test_saddr", "src/ipacl.c:ipacl_append"]}
{"id": "C38", "title": "Sorted option lists stay sorted and unique", "statement": "Adding to a sorted-unique option list keeps it sorted and free of duplicates, loses nothing, and finding an entry is exact.", "quantifier": "all insertion sequences", "why_tests_cant": "all permutations of unbounded insertions", "anchors": ["src/strlist.c:strlist_add_sorted_uniq", "src/strlist.c:strlist_add_sorted"]}
{"id": "C39", "title": "Switching to another client never escalates privileges", "statement": "A client that asks to act as another client is allowed to only when the target lists it, never gains the right to force backups, and ends with no permission that it does not itself hold; nor, unless listed as a super client, with one that the target does not grant.", "quantifier": "all permission assignments and lists", "why_tests_cant": "all combinations of permissions and lists", "anchors": ["src/conffile.c:conf_switch_to_orig_client", "src/conffile.c:restore_client_allowed"]}
{"id": "C40", "title": "Client names cannot escape the client configuration directory", "statement": "A client name accepted by the name check, joined to the configuration directory, names a direct child of that directory: it contains no separator and is neither '.' nor '..'.", "quantifier": "all client names", "why_tests_cant": "adversarial strings", "anchors": ["src/conffile.c:cname_valid", "src/prepend.c:prepend_s"]}
{"id": "C41", "title": "Include/exclude decision is by the most specific directory", "statement": "A path is included or excluded by the flag of the longest configured directory that contains it (the last one on ties), and is excluded when none contains it.", "quantifier": "all include/exclude lists and paths", "why_tests_cant": "unbounded lists and depths", "anchors": ["src/client/find.c:file_is_included_no_incext", "src/pathcmp.c:is_subdir"]}
{"id": "C42", "title": "Start directories cover every include exactly once", "statement": "The computed starting directories cover every included directory, and none of them lies beneath another one, so nothing is scanned twice.", "quantifier": "all sorted include lists", "why_tests_cant": "unbounded lists; depends on path order", "anchors": ["src/conffile.c:finalise_start_dirs"]}
{"id": "C43", "title": "The diff of two backups is exact", "statement": "Diffing two backups reports as deleted exactly the entries only in the first or whose modification time changed, and as added exactly the entries only in the second or whose modification time changed.", "quantifier": "all pairs of sorted manifests", "why_tests_cant": "merge walk over unbounded lists", "anchors": ["src/server/diff.c:diff_manifests"]}
{"id": "C44", "title": "Browsing a directory lists exactly its children", "statement": "Listing a directory in a backup reports each immediate child exactly once, including directories that exist only as parents of deeper entries.", "quantifier": "all sorted manifests and browse directories", "why_tests_cant": "unbounded trees", "anchors": ["src/server/list.c:check_browsedir"]}
{"id": "C45", "title": "Deduplication never changes file contents", "statement": "Running the deduplicator over a storage tree never changes the content visible at any path, links only files with identical content, and respects the maximum number of links.", "quantifier": "all file trees and hash behaviours (including checksum collisions)", "why_tests_cant": "all trees and collision patterns", "anchors": ["src/server/bedup.c:check_files", "src/server/bedup.c:do_hardlink"]}
{"id": "C46", "title": "Hard links are detected by identity", "statement": "While scanning, a file is reported as a hard link to an earlier path exactly when it has the same device and inode as that earlier file, and the reported target is the first path seen.", "quantifier": "all scan sequences", "why_tests_cant": "all sequences and hash collisions", "anchors": ["src/linkhash.c:linkhash_search", "src/linkhash.c:linkhash_add", "src/client/find.c:my_send_file_w"]}
{"id": "C47", "title": "Counters add up", "statement": "The totals reported for a backup equal the sums of the per-kind counters, for new, changed, unchanged and deleted entries.", "quantifier": "all sequences of counter updates", "why_tests_cant": "unbounded sequences", "anchors": ["src/cntr.c:cntr_add", "src/cntr.c:cntr_add_same", "src/cntr.c:cntr_add_changed", "src/cntr.c:cntr_add_deleted"]}
{"id": "C48", "title": "VSS headers are stripped exactly", "statement": "Stripping Windows backup streams outputs exactly the payload of the first data stream, skipping all other streams, and reports truncated input.", "quantifier": "all stream sequences", "why_tests_cant": "unbounded streams", "anchors": ["src/server/vss_strip.c:main_work"]}
{"id": "C49", "title": "Restores stay inside the requested directory", "statement": "On the client, no entry is ever written outside the directory the user asked to restore into, even when the server sends hostile paths and symlinks.", "quantifier": "all sequences of entries from a hostile server and all file system states", "why_tests_cant": "adversarial sequences with symlinks", "anchors": ["src/client/restore.c:canonicalise", "src/client/restore.c:do_restore_client"]}
{"id": "C50", "title": "Interrupting a file keeps client and server in step", "statement": "When either side interrupts the transfer of a file, the receiver discards data up to that file's end marker and no further, so the next entry is processed correctly.", "quantifier": "all message sequences and interruption points", "why_tests_cant": "all interleavings", "anchors": ["src/client/restore.c:restore_interrupt", "src/server/restore_sbuf.c:restore_file"]}
{"id": "C51", "title": "Include logic expressions evaluate as written", "statement": "Boolean include/exclude expressions are evaluated according to parentheses, negation and left-to-right combination.", "quantifier": "all well-formed expressions", "why_tests_cant": "unbounded nesting", "anchors": ["src/client/find_logic.c:eval_parsed_expression", "src/client/find_logic.c:bool_eval"]}
{"id": "C52", "title": "Configuration values are parsed faithfully", "statement": "A quoted configuration value is read back as exactly the text that was quoted (after unescaping), and surrounding white space and trailing comments after a quoted value do not matter.", "quantifier": "all values", "why_tests_cant": "all strings with quotes and backslashes", "anchors": ["src/conffile.c:conf_get_pair", "src/conffile.c:remove_quotes"]}
{"id": "C53", "title": "Joining paths never doubles or loses a separator", "statement": "Joining a directory and a file name yields a path that leads through the components of the directory and then those of the file name; a directory and a name that does not begin with a separator are joined by exactly one.", "quantifier": "all pairs of strings", "why_tests_cant": "boundary cases at the join", "anchors": ["src/prepend.c:prepend_s", "src/prepend.c:prepend_n"]}
{"id": "C54", "title": "A client is backed up by at most one process at a time", "statement": "Of any set of server processes racing for a client's lock, at most one proceeds with a backup or delete at a time, and a process that did not get the lock changes nothing.", "quantifier": "all interleavings of any number of processes", "why_tests_cant": "all schedules", "anchors": ["src/lock.c:lock_get", "src/server/run_action.c:get_lock_sdirs_for_write"]}
{"id": "C55", "title": "Operations are refused without permission", "statement": "List, diff, restore, verify and delete are carried out only if the corresponding permission is set for the client; an unknown or old-style request changes nothing.", "quantifier": "all request strings and permission settings", "why_tests_cant": "all request strings", "anchors": ["src/server/run_action.c:run_action_server_do", "src/server/run_action.c:run_restore"]}
{"id": "C56", "title": "Backup numbers strictly increase", "statement": "Every new backup gets a number greater than all retained ones, and backups are always listed oldest first with consistent ages.", "quantifier": "all histories", "why_tests_cant": "unbounded histories", "anchors": ["src/server/backup.c:get_new_bno", "src/server/bu_get.c:setup_indices"]}
{"id": "C57", "title": "A file is transferred intact or reported", "statement": "The receiver of a file transfer ends with exactly the bytes the sender read, in order; premature end, interruption or an unexpected message is reported as an error or warning and never taken for success.", "quantifier": "all file contents, chunkings and faults in the message stream", "why_tests_cant": "unbounded data and fault positions", "anchors": ["src/msg.c:transfer_gzfile_in", "src/msg.c:do_transfer_gzfile_in", "src/handy.c:receive_a_file"]}
{"id": "C58", "title": "Verification detects corruption", "statement": "Verifying a stored file succeeds only if its length and checksum equal those recorded at backup time.", "quantifier": "all stored contents and recorded trailers", "why_tests_cant": "all contents", "anchors": ["src/server/restore_sbuf.c:verify_file"]}
{"id": "C59", "title": "Seeded paths are rewritten consistently", "statement": "When a backup is seeded from another tree, each path under the seed source is rewritten under the destination exactly once and others are left alone.", "quantifier": "all prefixes and paths", "why_tests_cant": "all strings", "anchors": ["src/server/manio.c:manio_copy_entry", "src/server/backup_phase2.c"]}
{"id": "C60", "title": "Size settings are parsed to bytes", "statement": "A size setting such as 10Kb, 5Mb or 2Gb is converted to the corresponding number of bytes.", "quantifier": "all decimal numbers and suffixes", "why_tests_cant": "all numbers including overflow", "anchors": ["src/conffile.c:get_file_size"]}
{"id": "C61", "title": "Extension lists match exact extensions", "statement": "With include_ext, exclude_ext and exclude_comp, a file matches exactly when the part of its path after the last dot equals one of the listed extensions, ignoring case; a file without a dot matches none.", "quantifier": "all file names and extension lists", "why_tests_cant": "all strings", "anchors": ["src/client/find.c:in_include_ext", "src/client/find.c:in_exclude_ext", "src/client/find.c:in_exclude_comp"]}
{"id": "C62", "title": "The scan visits each wanted file once, in order", "statement": "For any configuration and directory tree, the client's scan visits exactly the files whose nearest configured directory is an include and that no filter leaves out on the way from there; each is visited once, in path order.", "quantifier": "all directory trees and include/exclude configurations", "why_tests_cant": "unbounded trees and rule lists", "anchors": ["src/client/find.c:find_files", "src/client/find.c:found_directory", "src/client/find.c:process_entries_in_directory"]}
{"id": "C63", "title": "Size limits apply exactly to regular files", "statement": "A regular file is left out because of min_file_size or max_file_size exactly when it is smaller than the one or larger than the other; a limit of zero is none, and other kinds of files are not affected.", "quantifier": "all files and limits", "why_tests_cant": "all sizes and limits", "anchors": ["src/client/find.c:file_size_match", "src/client/find.c:my_send_file_w"]}
{"id": "C64", "title": "A hard link is restored with its data when its target is not", "statement": "When a hard link is restored and the file that holds its data is left out of the restore, the data are sent under the path of the link; when nothing is left out, the link itself is sent.", "quantifier": "all manifests and selections", "why_tests_cant": "unbounded manifests and selections", "anchors": ["src/server/restore.c:restore_sbuf", "src/server/restore.c:hard_link_substitution"]}
{"id": "C65", "title": "A lockfile admits one running instance", "statement": "While a server or a client that has got its lockfile is running, starting another one with the same lockfile is refused, however their steps interleave.", "quantifier": "all interleavings of any number of processes starting, going into the background, ending and dying", "why_tests_cant": "all schedules, and the semantics of locks across fork", "anchors": ["src/prog.c:get_prog_lock", "src/lock.c:lock_get", "src/server/main.c:daemonise"]}
{"id": "C66", "title": "The status line of a running client arrives as it was sent", "statement": "While a client is served, the status line that its child process sends makes every reader show the same process, backup, status, counters and path, and never overruns the buffer made for it.", "quantifier": "all counter values, client names, paths and earlier states of the reader", "why_tests_cant": "unbounded counters and arbitrary paths", "anchors": ["src/cntr.c:cntr_to_str", "src/cntr.c:str_to_cntr", "src/cntr.c:calc_max_str_len", "src/server/main.c:extract_client_cntr_status", "src/server/main.c:server_get_working"]}
{"id": "C67", "title": "Stripping components from restored paths takes off what was asked for", "statement": "With strip=n, a restore leaves out exactly the first n components of each path and keeps the rest as it is; an entry that has too few components is left out and not restored somewhere else. With stripfrompath, exactly the first place where the given string is found is taken out of the path.", "quantifier": "all paths, numbers of components and strings", "why_tests_cant": "paths are of any length and can have empty components, and the same loop decides on both stripping and leaving out", "anchors": ["src/client/restore.c:strip_path_components", "src/client/restore.c:strip_from_path", "src/client/restore.c:do_restore_client"]}
{"id": "C68", "title": "Without -f a restore does not overwrite what exists", "statement": "When overwriting is not allowed, every directory, file and link that exists when an entry is restored is still there afterwards, the same file with the same contents, or the same link with the same target.", "quantifier": "all sequences of entries and all file systems, with links", "why_tests_cant": "whether something exists is asked once, on a path that can lead through links, and the directories above are made between the question and the removal of the old file", "anchors": ["src/client/restore.c:overwrite_ok", "src/client/restore.c:open_for_restore", "src/client/restore.c:make_link", "manpages/burp.8.in:-f"]}
{"id": "C69", "title": "Restoring any stored backup gives back what the client had at that time", "statement": "After any sequence of whole backups (scan, comparison with the previous backup, transfer of what is new or changed, merge of the lists, storage) and deletions, the manifest of each stored backup lists exactly what the client's scan found at its time (except files the client could not read), with the attributes it had, and restoring any listed file from that backup gives the content it had then.", "quantifier": "all histories of backups and deletions, all clients whose files do not change without their times changing, all contents", "why_tests_cant": "whole histories are composed of many stages that each rewrite what the earlier ones left; an error in how they fit together shows only in particular histories", "anchors": ["src/server/backup.c:do_backup_server", "src/server/backup_phase2.c:backup_phase2_server_all", "src/server/backup_phase3.c:backup_phase3_server_all", "src/server/backup_phase4.c:backup_phase4_server_all", "src/server/restore.c:do_restore_server"]}
{"id": "C70", "title": "Only a client with a valid certificate in its name is served, and a certificate is signed once", "statement": "A connection is served as a client exactly if it comes from an allowed address, is authorised as that client, the client is enabled, it does not ask for a certificate to be signed, and it presents a certificate that verifies, carries the name expected of the client and is not revoked (and, at a status port, the client may monitor). A certificate is signed only for an authorised and enabled client at an allowed address that asks for one while the CA has none in its name; it is then never replaced, and is in the name of that client. Serial numbers are not used twice.", "quantifier": "all connections and sequences of connections, all configurations of server and clients", "why_tests_cant": "the decision is spread over six functions that each have several ways out, and the state of the CA is the result of all earlier connections", "anchors": ["src/server/main.c:run_child", "src/server/auth.c:authorise_server", "src/server/ca.c:ca_server_maybe_sign_client_cert", "src/server/ca.c:sign_client_cert", "src/server/ca.c:verify_crl", "src/ssl.c:ssl_check_cert", "src/server/child.c:child"]}
{"id": "C71", "title": "Versions are compared by their numbers, from the first to the last", "statement": "Of two version strings a.b.c, the one that is numerically greater in the first place where they differ is treated as later; a text that is not of this form is refused and not taken for some version.", "quantifier": "all version strings", "why_tests_cant": "what one side may send depends on the comparison of two versions of which one is not yet known", "anchors": ["src/handy.c:version_to_long", "src/server/auth.c:version_warn", "src/server/extra_comms.c:extra_comms_read"]}
{"id": "C72", "title": "Limits on clients and on parallel backups are kept", "statement": "At no time are more clients served on an address than max_children (or max_status_children) allows, and a client is not turned away while there is room. At no time do more backups run than max_parallel_backups.", "quantifier": "all sequences of connections, ends of children, status reports and reloads of the configuration, in any order", "why_tests_cant": "children end, report and connect in any order, and each goes by what the server knew when it was forked", "anchors": ["src/server/main.c:chld_check_counts", "src/server/main.c:process_incoming_client", "src/server/main.c:check_for_exiting_children", "src/server/main.c:server_get_working", "src/server/run_action.c:run_action_server_do"]}
{"id": "C73", "title": "The value of a setting for a client comes from its own file, else from the server's", "statement": "A setting that may be overridden for a client has the value given last in the client's file in clientconfdir, and the server's own value if the client's file does not give one; lists are taken from the client's file if it has any entry of that name; other settings of the server do not leak into those of a client. Options on the command line come last.", "quantifier": "all global files, client files, included files and command line options, and every setting", "why_tests_cant": "about two hundred settings, each of which may be set, set again, reset or left out in three places", "anchors": ["src/conffile.c:conf_set_from_global", "src/conffile.c:conf_set_from_global_arg_list_overrides", "src/conffile.c:do_conf_load_overrides", "src/conffile.c:conf_finalise", "src/conf.c:confs_init"]}
{"id": "C74", "title": "A server can change only what a client allows it to", "statement": "If a client has server_can_restore = 0, or is a monitor, a server cannot make it restore and cannot change its settings for a restore. If it has server_can_override_includes = 0, a server cannot change its settings for a backup. A restore that a server asks for goes to the directory that the client has set or to one below it. A server that may set what is included and excluded can set nothing else.", "quantifier": "all settings of the client and all messages that a server may send", "why_tests_cant": "the server is another machine that may send anything, in any order", "anchors": ["src/client/extra_comms.c:extra_comms_client", "src/conffile.c:conf_parse_incexcs_srestore", "src/conffile.c:conf_parse_incexcs_buf", "src/incexc_recv.c:incexc_recv_client"]}
{"id": "C75", "title": "Settings that one side sends arrive as they were", "statement": "If a client lets the server set what is included and excluded, then after that the client has the server's values for all of these settings: scalars are equal, lists have the same entries, and all other settings of the client are as they were. The same holds for the settings of a restore that the server asks for.", "quantifier": "all settings of server and client, all values and lists, all command lines of the client", "why_tests_cant": "every setting is written out as text and read back by the parser of configuration files, among some forty others and on top of what the client had before", "anchors": ["src/incexc_send.c:do_sends", "src/incexc_recv.c:incexc_recv", "src/conffile.c:conf_load_lines_from_buf", "src/conf.c:free_incexcs", "src/conffile.c:conf_finalise"]}
{"id": "C76", "title": "Client and server agree on features, whatever the schedule", "statement": "When a recent client and a server negotiate, then however their steps interleave the conversation ends: neither waits for the other for ever. Either both finish with nothing left on the connection and have the same idea of the hash, of messages and counters, of whether a restore takes place, of the includes and excludes, the seeds and the flags; or one of them has refused something of the other. Whatever a client sends, it cannot choose a hash that the server lacks, change who has connected, or gain a right.", "quantifier": "all schedules of the two processes, all settings of both, all builds (with or without blake2), all actions; for the rights, all sequences of messages", "why_tests_cant": "the two run concurrently with unbounded buffers between them, each message may be sent or not depending on settings that earlier messages change", "anchors": ["src/client/extra_comms.c:extra_comms_client", "src/server/extra_comms.c:extra_comms", "src/server/extra_comms.c:extra_comms_read", "src/server/extra_comms.c:send_features", "src/conffile.c:conf_switch_to_orig_client"]}
{"id": "C77", "title": "What is asked for on the command line is what the server does", "statement": "The options of a client for restoring, verifying, listing, comparing or deleting backups are sent as a line of text. The server does exactly what was asked for, with the backup, expression, directory and list of files that were given, if the client is allowed to, and otherwise nothing. A number names the backup with that number and no other; no backup means the most recent for a restore and all of them for a list; 'a' means all of them.", "quantifier": "all options of the client, all settings of the server, all lists of backups", "why_tests_cant": "options are arbitrary texts that are joined into one line with separators which may also occur in them, and cut apart again by the other program", "anchors": ["src/prog.c:real_main", "src/client/list.c:do_list_client", "src/client/restore.c:do_restore_client", "src/client/delete.c:do_delete_client", "src/server/run_action.c:run_action_server_do", "src/server/list.c:list_server_init", "src/server/list.c:do_list_server_work"]}
{"id": "C78", "title": "The exit code of a client says what happened, and scripts are run when they should be", "statement": "Exit code 0 means that the work was done with the last server that was tried and that no script failed; 2 that a restore was done with warnings; 3 that the timer did not allow a backup; 4 that there was no connection to the last server; 5 that there were too many backups at a time. Scripts and a backup begin only when the server has said so; no work is done if the script before it fails; the script after it is run after success, and after failure if that is wanted, and is told which. Other servers are tried in the order given, once each, and only if there was no connection or a backup failed and that is wanted. The level of compression and whether to resume are those of the server.", "quantifier": "all settings, all answers of servers, all results of scripts and of the work, any number of servers", "why_tests_cant": "scripts, servers and connections can fail in any combination and at any time, and many tools act upon the exit code alone", "anchors": ["src/client/main.c:client", "src/client/main.c:do_client", "src/client/main.c:backup_wrapper", "src/client/main.c:restore_wrapper", "src/client/main.c:maybe_check_timer_func", "src/run_script.c:run_script_to_buf"]}
{"id": "C79", "title": "A monitor sees the clients that it may see, as they are, and no others", "statement": "The overview that a monitor gets has each client that it may watch, according to the configuration files as they were last read, once and in order, with its labels, its current backup and the one being made, and no other client. A client is shown as running exactly when a child for it is at work, with the process, backup, phase and counters of the child. A client, a backup, a log or a directory that is asked for is what is shown. Of clients that the monitor may not watch no backups are shown and no files are read. Each request gets exactly one answer, and none makes the server follow a null pointer.", "quantifier": "all sequences of changes on disk, lines from the main process and requests from the monitor, all settings", "why_tests_cant": "the list is kept up to date from three sources that interleave in any order, and decisions made with earlier settings are remembered in it", "anchors": ["src/server/monitor/status_server.c:parse_parent_data", "src/server/monitor/status_server.c:parse_client_data", "src/server/monitor/cstat.c:cstat_load_data_from_disk", "src/server/monitor/cstat.c:cstat_permitted", "src/server/monitor/json_output.c:json_send"]}
{"id": "C80", "title": "Browsing a backup with the monitor shows the files that are in it", "statement": "Whoever browses a backup with a monitor and asks for a directory is shown every name that is in that directory of the backup, each once, and nothing else, the same with the cache as without; each file is shown with the attributes that its record in the manifest has; a directory that is not in the backup is not shown as something else; and whatever was asked before, an answer is that which the manifest gives now.", "quantifier": "all manifests in burp's order, all directories and depths, all sequences of questions about clients and backups", "why_tests_cant": "the cache makes a tree of unbounded depth and width out of a flat list, looking at the last entry of each directory only, and answers arbitrary later questions from it", "anchors": ["src/server/monitor/cache.c:cache_load", "src/server/monitor/cache.c:cache_lookup", "src/server/monitor/cache.c:cache_loaded", "src/server/monitor/browse.c:browse_manifest", "src/server/monitor/browse.c:do_browse_manifest"]}
{"id": "C81", "title": "Access control lists and extended attributes come back as they were", "statement": "A file that is backed up with access control lists or extended attributes has, after it is restored to where nothing was, the same access control list, for a directory the same default one, and every extended attribute with the same value, empty or with any bytes; when the system refuses one of them an error is counted; when the data is cut off, no attribute gets a value that is cut off; a kind that is switched off in the configuration is not saved; and a file that had none gets none.", "quantifier": "all texts of control lists, all lists of extended attributes and values, all sets of operations that the system refuses, all places where the data is cut off", "why_tests_cant": "the format has lengths inside lengths and two readers that have to agree with two writers for every combination of lists, sizes and refusals", "anchors": ["src/client/extrameta.c:get_extrameta", "src/client/extrameta.c:set_extrameta", "src/client/extrameta.c:has_extrameta", "src/client/acl.c:get_acl", "src/client/acl.c:set_acl", "src/client/xattr.c:get_xattr", "src/client/xattr.c:set_xattr"]}
{"id": "C82", "title": "A client is upgraded to what the server has for it, or left alone", "statement": "A client that asks for upgrades and is older than the server runs the script that the server has for its system and version, with the package for it, byte for byte; a client that is as new, or for which there is nothing, or that does not ask, is left alone and goes on with what it was asked to do; nothing else is ever sent, whatever name of a system a client gives, and nothing is run that has not arrived whole; and a run that has not done what was asked does not report success.", "quantifier": "all versions, names of systems, files of the server, contents, ways in which messages for the user are mixed in, and places where the connection breaks", "why_tests_cant": "the name of the system comes from the client and becomes part of a path; the files go through compression and a connection that can break at every point", "anchors": ["src/server/autoupgrade.c:autoupgrade_server", "src/server/extra_comms.c:do_autoupgrade", "src/client/autoupgrade.c:autoupgrade_client", "src/handy.c:receive_a_file"]}
{"id": "C83", "title": "Scripts and notifications on the server tell what happened", "statement": "If the script to be run before a request fails, nothing is done about the request; otherwise what is asked for is done, and then the script to be run afterwards is run if it should be, told truthfully whether the action failed and whether the timer conditions were met, with all of its arguments. Of every backup that was begun the failure is notified, once, or the success, once, if the settings ask for it; and nothing is notified as a success, or a failure, that was not one.", "quantifier": "all requests, settings, results of scripts, backups and timers, states of the lock and of interrupted backups", "why_tests_cant": "the scripts run in combinations of request, setting and outcome that are hard to bring about", "anchors": ["src/server/child.c:child", "src/server/child.c:run_server_script", "src/server/run_action.c:maybe_do_notification", "src/server/run_action.c:run_action_server_do", "src/run_script.c:run_script_to_buf"]}
{"id": "C84", "title": "A client gets its certificate, or may try again", "statement": "A client without a key that asks the server for a certificate ends up with a key and with the two certificates that were sent, arrived whole, and with the name of the server in its configuration file, in which nothing else has changed; otherwise, after an error or an interruption at any point, it is able to ask again, and has lost nothing that it had before. A client with a key, or that is not set up for it, is left alone.", "quantifier": "all settings, contents of configuration files, names given by the server, results of the program that makes the key, failures of each step, and points of interruption", "why_tests_cant": "it happens once in the life of a client, against a server that is not known yet, and every step can fail", "anchors": ["src/client/ca.c:ca_client_setup", "src/client/ca.c:rewrite_client_conf"]}
{"id": "C85", "title": "A silent connection is given up, and only a silent one", "statement": "burp gives up a connection for lack of activity only when nothing could be sent or received on it for more than network_timeout seconds, whatever other connections do, and no jump of the clock makes it do so sooner than that many calls; a connection on which burp waits and nothing can be sent or received is given up once that time is over; with a setting of zero no connection is given up.", "quantifier": "all settings, numbers of connections, sequences of calls, clock readings, and answers of the operating system", "why_tests_cant": "the default takes two hours of silence, and the count depends on the schedule of every connection", "anchors": ["src/async.c:async_io", "src/async.c:async_read_quick", "src/asfd.c:asfd_set_timeout"]}
{"id": "C86", "title": "The rate of sending is limited", "statement": "With a limit set, what burp has sent on a connection never exceeds what the limit allows for the time since it began to send, by more than one buffer; it does not hold back more than that, it never pauses for longer than half a second at a time, and without the setting it holds back nothing.", "quantifier": "all limits, sequences of attempts to write, clock readings, and numbers of bytes that the operating system takes", "why_tests_cant": "it is a statement about all schedules of writes and readings of the clock", "anchors": ["src/asfd.c:check_ratelimit", "src/asfd.c:asfd_do_write", "src/asfd.c:asfd_do_write_ssl", "src/conffile.c:load_conf_field_and_value"]}
{"id": "C87", "title": "Messages that have arrived through TLS are delivered without waiting for more", "statement": "Over an encrypted connection between two burps, every message of which all bytes have arrived is delivered, in order, without anything more having to arrive: nothing is left inside the encryption layer, where waiting for the socket does not see it, whatever the sizes of messages, the way they are put into records, and the order of arriving, reading and taking. Neither side ever runs out of buffer.", "quantifier": "all sequences of messages with any sizes, all ways of cutting them into records, all interleavings of records arriving, reading, and messages being taken", "why_tests_cant": "data left inside TLS makes a backup hang only for some combinations of message sizes and timing", "anchors": ["src/asfd.c:asfd_do_read_ssl", "src/asfd.c:asfd_do_write_ssl", "src/asfd.c:asfd_append_all_to_write_buffer", "src/async.c:async_io"]}
{"id": "C88", "title": "A listing shows what the backup has", "statement": "Listing backups prints a line for each; listing contents prints the entries that match, each once, in order, with all of their permissions in a long listing. What a parseable listing prints is read back as the same paths, and restoring with it restores what the listing showed. A listing that ends well is a whole one, and only what is in the backup is sent.", "quantifier": "all backups, manifests, attributes, regular expressions, directories, styles of listing, contents of memory, and points at which the connection is lost", "why_tests_cant": "what is printed depends on every path and attribute in a backup, and the end of a list is the end of the connection", "anchors": ["src/client/list.c:do_list_client", "src/client/list.c:ls_long_output", "src/client/list.c:encode_mode", "src/server/list.c:list_manifest", "src/server/list.c:check_browsedir"]}
{"id": "C89", "title": "Deleting removes what is to be deleted, and nothing else", "statement": "Deleting a directory changes nothing outside of it, wherever links in it lead and whatever calls fail; when it says that it is done, nothing is left; and when no call fails, it is done. Removing empty directories removes exactly those. A deleted backup is gone, or with manual_delete put aside as a whole without overwriting what was put aside before, and the current link leads to the one before it; no other backup changes. An unfinished backup is put aside as a whole, but for its timestamp.", "quantifier": "all file systems with symbolic links, paths, orders and failures of calls, depths, and directories of clients", "why_tests_cant": "what a deletion may reach depends on every link in a backup, and on which call fails", "anchors": ["src/fsops.c:do_recursive_delete", "src/fsops.c:recursive_delete", "src/fsops.c:recursive_delete_dirs_only", "src/server/delete.c:delete_backup", "src/server/delete.c:do_rename_w", "src/server/deleteme.c:deleteme_move"]}
{"id": "C90", "title": "Signatures and differences pass to and from librsync unaltered", "statement": "When a signature, a difference or a patch has been finished, what was written or sent is what librsync makes of the whole of its input: nothing is lost, repeated or out of order, whatever each read gives and however often the network does not take a message; and when nothing fails it does finish. The length and the checksum that the client sends are those of exactly the bytes that went into the difference. So a changed file is put together on the server as it was on the client. No message is copied past the end of a buffer.", "quantifier": "all files, lengths of buffers, schedules of reads, writes and blocked messages, and all jobs that keep to librsync's interface", "why_tests_cant": "the pieces depend on how each read and each message happens to be split, and on when the network blocks", "anchors": ["src/rs_buf.c:rs_infilebuf_fill", "src/rs_buf.c:rs_outfilebuf_drain", "src/rs_buf.c:rs_async_drive", "src/rs_buf.c:rs_whole_gzrun", "src/client/backup_phase2.c:rs_loadsig_network_run", "src/client/backup_phase2.c:load_signature_and_send_delta", "src/server/blocklen.c:get_librsync_block_len"]}
{"id": "C91", "title": "What is restored has the owner, the mode and the times that it had", "statement": "When everything that is done for one file, its other names and its metadata works, then at the end of the restore it has the owner, group, permission bits (those for running as the owner too) and times that it had when it was backed up, however much else is restored after it, in whatever order as long as directories come after what is in them, and whichever other calls fail. Files that are not restored, nor other names of such, stay as they are; of the directories on the way only the times change.", "quantifier": "all file systems with hard links, streams of entries, clocks and choices of calls that fail", "why_tests_cant": "each thing that is restored changes the times of a directory, and the attributes of hard links are shared, so it depends on the order and on everything that comes later", "anchors": ["src/attribs.c:attribs_set", "src/attribs.c:attribs_set_file_times", "src/client/restore.c:restore_dir", "src/client/restore.c:restore_link", "src/client/restore.c:restore_special", "src/client/restore_switch.c:restore_metadata", "src/client/restore_switch.c:restore_switch"]}
{"id": "C92", "title": "Files on the server are compressed, inflated and cut without loss", "statement": "When a log or another file on the server is compressed, what is in it can be had at every moment, whichever call fails and wherever a crash comes: from the file itself or from a complete compressed one. Success is reported exactly when the compressed file is complete; else everything is as it was. What is inflated is what was compressed, and cutting a compressed file leaves the old one or a complete new one. Reading a fixed number of bytes gives all of them, the end of the file, or an error.", "quantifier": "all contents, sizes of buffers, choices of calls that fail and crash points", "why_tests_cant": "it needs every place where a call can fail and every place where a crash can come", "anchors": ["src/fzp.c:gztruncate", "src/fzp.c:fzp_read_ensure", "src/fzp.c:fzp_printf", "src/server/compress.c:bcompress", "src/server/compress.c:compress_file", "src/server/zlibio.c:zlib_inflate"]}
{"id": "C93", "title": "What a monitor client shows is what the server has told it", "statement": "When an answer of the server has come in, a monitor client shows each client the answer is about with its state, with those at work on it and their counters, and with its backups, each with its time, flags and logs, the latest first and no others; what it shows of other clients is as before. The lines of a log are shown as they are. Answers of a server never make the client give up. The backup that is selected is always one that is shown.", "quantifier": "all answers that a server can make, all sequences of them, and for the selection all calls of the parser in any order", "why_tests_cant": "what is shown depends on all answers that have come before", "anchors": ["src/client/monitor/json_input.c:merge_bu_lists", "src/client/monitor/json_input.c:input_string", "src/client/monitor/json_input.c:input_end_array", "src/server/monitor/json_output.c:json_send_client_start", "src/server/monitor/json_output.c:json_send_backup"]}
{"id": "C94", "title": "JSON text between a server and a monitor client is read as it was written, however it arrives", "statement": "The JSON text that a server writes for an answer, pretty or not, is read by the client as the pieces that were written, with any bytes in its strings, wherever the text is cut on its way. The client gets the lines whole and in order, goes through answer after answer, and says at the last line of each one, and only there, that the answer has ended. Of any other text the parser never gives the client anything but the first pieces of some value, and reading it is always defined. Messages of a monitor can be read as well.", "quantifier": "all JSON objects of nesting less than 128, all strings of bytes, all divisions of a text into reads, and for the parser all texts", "why_tests_cant": "a text can be cut anywhere, inside an escape or a number, and may hold any bytes", "anchors": ["src/yajl/yajl_gen.c:yajl_gen_string", "src/yajl/yajl_encode.c:yajl_string_decode", "src/yajl/yajl_lex.c:yajl_lex_lex", "src/yajl/yajl_parser.c:yajl_do_parse", "src/client/monitor/json_input.c:json_input", "src/asfd.c:parse_readbuf_line_buf", "src/server/monitor/json_output.c:write_all", "src/log.c:logp"]}
{"id": "C95", "title": "The list of files that a backup begins with has all that is wanted, says what it is, and is whole or not there", "statement": "In the first phase of a backup the client goes through the starting directories and everything that is to be looked at below them, and no further: not into directories marked with nobackup files, nor into file systems that are not wanted. Every file that it finds and that the settings want is in the list that the server writes, once, with its kind, its attributes, how it is to be compressed and encrypted, the target of a symbolic link, or, if it is another name of a file that is in the list before, that name; with an entry for its metadata just if it has any; and nothing else is in the list. There is a warning about each directory that is not read and each file that cannot be, and with scan_problem_raises_error the phase fails. The server has the list, with all entries in order, only if the phase was finished, and with fail_on_warning only if there was no warning.", "quantifier": "all file systems and settings, all warnings, all points at which the connection is lost", "why_tests_cant": "the file systems and settings are without number, and what becomes of a file depends on the files before it", "anchors": ["src/client/find.c:find_files", "src/client/find.c:found_directory", "src/client/find.c:found_other", "src/client/find.c:my_send_file_w", "src/client/backup_phase1.c:backup_phase1_client", "src/client/backup_phase1.c:my_send_file", "src/server/backup_phase1.c:backup_phase1_server_all"]}
{"id": "C96", "title": "The program does what the words on its command line say, or nothing", "statement": "Each option can be written in a word of its own, together with others, with its argument in the same word or the next one, and in any order; for most of them the last one counts. With an option that there is not, an argument that is missing or a word too many, the program does nothing but print its help. It deletes a backup only if the word delete is written in full and the backup is given. Without -b a restore, a verification and a difference are of the latest backup, and a difference is with what is on disk. Backups by a client, and the server, run only with the lock. An action that there is not is refused, and with -t the program says whether the settings are good.", "quantifier": "all lists of words, all configurations, locks and users", "why_tests_cant": "there are infinitely many command lines, and the options can be mixed in any order", "anchors": ["src/prog.c:real_main", "src/prog.c:parse_action", "src/prog.c:run_test_confs", "src/prog.c:random_delay", "src/prog.c:get_prog_lock"]}
{"id": "C97", "title": "From the file system of a day to what a restore gives back, across all phases and later backups", "statement": "Take a client on the day of a backup: every file that its configuration asks for is, once the backup is stored, in that backup with its kind, device, inode, times and size, and restoring it gives the content the file had; nothing that the configuration does not ask for is in it; and this stays so through any later backups and deletions of other backups. The only exceptions are symbolic links that cannot be read and files that the client could not read when asked.", "quantifier": "every configuration of included and excluded directories, every file system, every history of whole backups and deletions", "why_tests_cant": "the claim goes through the walk, the messages, the list on the server, the comparison with the backup before, merging, deltas and reverse deltas; a test can look at one tree and a few backups of it", "anchors": ["src/client/find.c:find_files", "src/client/backup_phase1.c:backup_phase1_client", "src/server/backup_phase1.c:backup_phase1_server_all", "src/server/backup_phase2.c:process_next_file_from_manios", "src/server/backup_phase3.c:backup_phase3_server_all", "src/server/backup_phase4.c:backup_phase4_server_all", "src/sbuf.c:sbuf_fill_from_file"]}
{"id": "C98", "title": "The second phase of a backup with both sides at work: nothing is mixed up and nobody waits forever", "statement": "While the server asks for files and the client sends them, each at its own pace, over a network and through buffers of limited size: neither side ever gets a message that it does not expect; the phase comes to its end, and by then every request has been answered; and what the server has saved are the files that were sent to their end, in the order of the requests, each with its own path, attributes and contents, whatever happened to the files between them (vanished, could not be read, broke off).", "quantifier": "every list of requests (new files, and changed files with signatures of any length), every fate of each file on the client, every capacity of the network, every interleaving of the two sides and the network", "why_tests_cant": "a deadlock needs the buffers of both sides and of the network to be full at the same moment; tests with a loopback connection and small files do not fill them, and a test sees one schedule", "anchors": ["src/server/backup_phase2.c:backup_phase2_server_all", "src/server/backup_phase2.c:do_stuff_to_send", "src/server/backup_phase2.c:do_stuff_to_receive", "src/server/backup_phase2.c:process_next_file_from_manios", "src/client/backup_phase2.c:do_backup_phase2_client", "src/client/backup_phase2.c:deal_with_data", "src/client/backup_phase2.c:forget_file", "src/asfd.c:asfd_write", "src/asfd.c:asfd_append_all_to_write_buffer", "src/async.c:async_io"]}
{"id": "C99", "title": "The data of a restore with both sides at work: nothing is mixed up and nobody waits forever", "statement": "While the server sends the entries of a backup and the client restores them, complains about them and refuses some of them, each at its own pace, over a network and through buffers of limited size: neither side ever gets a message that it does not expect; the restore comes to its end; and by then the client has dealt with every entry that the server found, in the order in which they were sent, and each one that it did not refuse has been restored with all of its data, however early or late the server notices that a file is refused.", "quantifier": "every list of entries (directories, special files, links, files with any data, files whose data cannot be found), every fate of each entry on the client and everything it says about it, every capacity of the network, every interleaving of the two sides and the network", "why_tests_cant": "a deadlock needs the buffers of both sides and of the network to be full at the same moment; an interrupt that comes too late or too early needs a certain timing; a test sees one schedule and few warnings", "anchors": ["src/server/restore.c:restore_stream", "src/server/restore.c:restore_ent", "src/server/restore.c:restore_remaining_dirs", "src/server/restore.c:restore_end", "src/server/restore_sbuf.c:restore_sbuf_all", "src/server/restore_sbuf.c:restore_file", "src/server/restore_sbuf.c:do_send_file", "src/handy.c:do_quick_read", "src/client/restore.c:do_restore_client", "src/client/restore.c:restore_interrupt", "src/sbuf.c:parse_cmd", "src/asfd.c:asfd_write", "src/asfd.c:asfd_simple_loop"]}
{"id": "C100", "title": "Deduplication while the server goes on is noticed by nobody who reads files by their paths", "statement": "While bedup runs, in whatever order it goes through clients and files, and whatever the server does meanwhile (backups of any client are begun, written, broken off, finished and deleted): every file that the server would have without bedup is there with the data it would have; the data of a finished backup does not change; and bedup changes nothing in the directory of a backup that is being made.", "quantifier": "every storage, every order of clients and files, every moment at which bedup passes a file by or fails, every sequence of acts of the server, every interleaving of the two, down to single system calls", "why_tests_cant": "what goes wrong needs a backup to begin within one client's turn and a file to be looked at between two writes; a test that runs bedup on a storage at rest sees nothing of it", "anchors": ["src/server/bedup.c:process_dir", "src/server/bedup.c:check_files", "src/server/bedup.c:full_match", "src/server/bedup.c:do_hardlink", "src/server/bedup.c:level_exclusion", "src/server/bedup.c:get_link", "src/server/bedup.c:iterate_over_clients", "src/server/sdirs.c:sdirs_create_real_working", "src/server/backup.c:do_backup_server", "src/server/delete.c:delete_backup", "src/server/backup_phase4.c:backup_phase4_server"]}
{"id": "C101", "title": "The settings are those of the lines of the files, in order, with included files in their place", "statement": "Reading a configuration file gives the settings of its lines one after the other, where a line `. pattern` stands for the lines of the files that it names (relative to the directory of the file that it is in), in the order found, to any depth. The file is refused if a line is not understood, a file cannot be read, a pattern names nothing, or files include each other without end. A comment sets nothing.", "quantifier": "every set of files, every content, every nesting of inclusions, every limit of open files", "why_tests_cant": "the depth and shape of inclusions are unbounded, and the limit of the buffer for lines shows only with a line of just over 4095 bytes", "anchors": ["src/conffile.c:conf_load_lines_from_file", "src/conffile.c:conf_parse_line", "src/conffile.c:deal_with_dot_inclusion", "src/conffile.c:do_load_global_only", "src/prepend.c:prepend_s"]}
{"id": "C102", "title": "A program starts only with a complete configuration, and fills in only what is not set", "statement": "A server starts only if its directory, group for deduplication, directory of client files, method of recovery, file for key exchange, numbers of backups to keep, lock and certificates are set, no password for encryption is there, limits are sensible, a certificate authority of its own is complete, and paths that must be are absolute. A client starts only if it has a server, certificates, a lock, and a name: its own, or that of its certificate, or that of its host, made short or lower case as configured. Complete configurations are accepted. What is set is not changed; only five settings are filled in. This holds for the settings of a client on the server too.", "quantifier": "every set of files, every option of the command line, every certificate and name of the host", "why_tests_cant": "the settings are too many for all combinations to be tested, and defaults depend on which others are set", "anchors": ["src/conffile.c:conf_finalise_global_only", "src/conffile.c:server_conf_checks", "src/conffile.c:client_conf_checks", "src/conffile.c:general_conf_checks", "src/conffile.c:get_cname_from_ssl_cert", "src/conffile.c:get_fqdn", "src/conffile.c:mangle_cname", "src/conffile.c:conf_load_global_only"]}
{"id": "C103", "title": "The data of every new file is kept at a place of its own", "statement": "The data of a new file goes to a path like that of the file on the client if it is the content of a file, trees are configured and neither the path nor a name in it is too long for the server; other data goes to numbered paths. No two files of a backup get the same path, or a path inside that of another. All of them can be made, and what is there in the end is what the client sent.", "quantifier": "every list of new files of a client whose files are apart, every limit on paths and names, every setting of trees, every value of the counter that does not run out", "why_tests_cant": "places depend on all files of a backup, on limits of the file system, and on the counter", "anchors": ["src/server/backup_phase2.c:set_new_datapth", "src/server/backup_phase2.c:treedata", "src/server/backup_phase2.c:path_too_long", "src/server/backup_phase2.c:start_to_receive_new_file", "src/fsops.c:init_fs_max", "src/fsops.c:mkpath", "src/fsops.c:build_path"]}
{"id": "C104", "title": "The backups that are told of are those that are there and complete", "statement": "The list of backups of a client has just the directories whose names start with a digit and the same eight characters as the timestamp in them, without those that are being made or finished unless these are asked for. It is in the order of the names. For every backup it tells the timestamp, the number, whether it is the current one, and whether it has a manifest and may not be deleted. The current backup that is found is the one that the link points to. The numbering of backups (C56) is from this list.", "quantifier": "every content of the directory of a client, every target of the links in it", "why_tests_cant": "the list depends on all names, links and timestamps in a directory that many programs write to, and on buffers of limited size", "anchors": ["src/server/bu_get.c:do_bu_get_list", "src/server/bu_get.c:maybe_add_ent", "src/server/bu_get.c:have_backup_file_name", "src/server/bu_get.c:bu_get_current", "src/server/timestamp.c:timestamp_read", "src/fsops.c:readlink_w_in_dir"]}
{"id": "C105", "title": "The manifest says what is needed to read every stored file", "statement": "Whatever settings of compression, exclude_comp and encryption_password backups are made with, and whether a file is sent as a whole, patched, left unchanged or taken from the file that it was a hard link to: a restore of each backup, with the password that the backups were made with, gives what the file held when that backup was made. A file that is sent when there is a password is stored encrypted.", "quantifier": "every history of a stored file, with any settings at each backup, and with the histories of the files that it was a hard link to; every compression, cipher and delta algorithm that can be undone; every backup of the history", "why_tests_cant": "the form of the stored data is decided in one backup and needed in a later one, after the settings have changed and other files have come and gone", "anchors": ["src/client/backup_phase2.c:deal_with_data", "src/client/backup_phase2.c:send_whole_file_w", "src/client/backup_phase1.c:to_server", "src/server/backup_phase2.c:process_unchanged_file", "src/server/backup_phase2.c:relink_deleted_hardlink_master", "src/server/backup_phase2.c:maybe_do_delta_stuff", "src/server/backup_phase4.c:forward_patch_and_reverse_diff", "src/server/restore_sbuf.c:do_send_file", "src/client/restore_switch.c:do_restore_file_or_get_meta", "src/handy.c:dpth_is_compressed"]}
{"id": "C106", "title": "A timed backup begins and goes on when the timer allows it or it has been asked for", "statement": "A request for a timed backup begins one exactly if the timer allows it or an administrator has asked for it. Once begun, the backup is stopped only if the timer does not allow it any more and nobody has asked for it; and if timer_repeat_interval is set, then it does not go on for longer than that after the timer last allowed it, as long as the clock is not set back. A backup that has been asked for is made. Meanwhile status lines are written at most every two seconds, in order and none twice.", "quantifier": "every setting of the timer, every sequence of moments at which the server comes to an entry, and of requests of the administrator; every pattern of status lines that can be written at once or have to wait", "why_tests_cant": "it depends on when the server comes to the next entry, on static variables, and on a file that is removed by reading it", "anchors": ["src/server/child.c:timed_operation", "src/server/child.c:check_timer_script", "src/server/child.c:write_status", "src/server/timer.c:run_timer", "src/server/timer.c:check_manual_file", "src/server/backup.c:run_backup"]}
{"id": "C107", "title": "The statistics of a resumed backup are those of a backup without interruptions", "statement": "However often a backup is interrupted, and wherever, when it has been resumed and has ended its statistics say the same as if it had not been interrupted: the numbers of new, changed, unchanged, deleted and scanned entries of each kind, the estimated size, the number of bytes and the warnings.", "quantifier": "every scan and previous manifest, every decision about the entries, every set of files that the client cannot send, any number of interruptions at any places, and every order in which data arrive", "why_tests_cant": "it depends on where the interruptions are, on two files that are cut at a position found by comparing paths, and on entries of the same place following each other", "anchors": ["src/server/resume.c:read_phase1", "src/server/resume.c:add_to_cntr", "src/server/resume.c:forward_past_entry_counter", "src/server/resume.c:forward_before_entry", "src/server/resume.c:get_last_good_entry", "src/server/resume.c:do_resume_work", "src/server/backup_phase2.c:deal_with_receive_end_file", "src/server/backup_phase2.c:deleted_file"]}
{"id": "C108", "title": "A backup can be resumed from files whose last entry was written in part", "statement": "However the writing of the lists of an interrupted backup was cut off, resuming the backup succeeds, drops what was written in part and keeps the entries before it, cuts each list where a whole entry ends so that what is appended can be read behind it, goes on in the scan and in the previous manifest with the entries that follow, never uses again a storage path that is on record, also in the part of an entry, and ends with the lists of a backup without interruptions.", "quantifier": "all contents of the two lists and of the two files of counters, all cuts in any byte of the last entry of each, any number of interruptions, every scan and previous manifest, and every place of the storage allocator", "why_tests_cant": "it depends on the byte at which the files were cut, on positions found while reading them, and on everything that earlier interruptions left in them", "anchors": ["src/server/resume.c:do_resume", "src/server/resume.c:do_resume_work", "src/server/resume.c:get_last_good_entry", "src/server/resume.c:forward_past_entry", "src/server/resume.c:forward_before_entry", "src/server/resume.c:forward_past_entry_counter", "src/server/resume.c:set_higher_datapth", "src/server/manio.c:manio_tell", "src/server/manio.c:manio_seek", "src/server/manio.c:manio_close_and_truncate", "src/sbuf.c:sbuf_fill_from_file"]}
{"id": "C109", "title": "The main process passes on what the children say, goes on whatever they do, and ends only when they have ended", "statement": "What the main process of the server passes on from a child to the monitors is what the child wrote, message by message and in order; a monitor hears whole messages in the order in which they were passed on, and all of them if it reads fast enough; at least every five seconds it is told which clients are connected and have reported. The server goes on whatever clients, children and monitors do. When it is asked to end gently it ends when all children have ended, and not before.", "quantifier": "all sequences of turns of the main loop: any clients and monitors coming and going, any bytes written by the children, any split into reads and writes, failing pipes, ending children, any clock, and signals at any turn", "why_tests_cant": "it is about every interleaving of many processes, partial reads and writes, full buffers and signals", "anchors": ["src/server/main.c:run_server", "src/server/main.c:server", "src/server/main.c:process_incoming_client", "src/server/main.c:setup_parent_child_pipes", "src/server/main.c:extract_client_name", "src/server/main.c:write_to_status_children", "src/server/main.c:update_status_child_client_lists", "src/server/main.c:maybe_update_status_child_client_lists", "src/server/main.c:chld_check_for_exiting", "src/async.c:async_io", "src/asfd.c:asfd_append_all_to_write_buffer"]}
{"id": "C110", "title": "What a script prints is logged in whole, and burp goes by its exit code", "statement": "When burp runs a script (before and after a backup or a restore, on the server, for the timer, for notifications, for certificates), all that the script prints is logged, in order, line by line; what it prints on its error output becomes warnings. Burp goes on when the script has ended, not before, and takes the exit code of that script as the result: 0 is success, anything else and an end by a signal is a failure. The script gets all the arguments of the configuration.", "quantifier": "all scripts: any writes to the two pipes in any pieces, any moment of closing them and of ending, any exit status, any interleaving with the turns of burp's loop and with interrupted waits, any number of scripts in one process, any command line", "why_tests_cant": "it is about every interleaving of a script's output, its end and burp's reads", "anchors": ["src/run_script.c:run_script", "src/run_script.c:run_script_to_buf", "src/run_script.c:run_script_select", "src/run_script.c:log_script_output", "src/run_script.c:run_script_sigchld_handler", "src/forkchild.c:forkchild", "src/log.c:logm", "src/log.c:logw"]}
{"id": "C111", "title": "A server that stops while it ends a backup loses nothing of it", "statement": "Wherever and however often the server stops (a crash, a power cut, a kill) between the end of the scan and the end of a backup, a backup that later counts as done lists everything that was recorded for it, once, and nothing else. The next connection that resumes it completes it, it is not mistaken for a backup whose scan was not completed, and once it counts as done it stays so with the same list of files. A client is told that its backup is done if and only if it is.", "quantifier": "all lists of changed and unchanged entries, every point at which the server stops, any number of connections after that with any settings, each of which may stop anywhere too", "why_tests_cant": "it is about every crash point of every attempt in a row of attempts", "anchors": ["src/server/backup.c:do_backup_server", "src/server/backup_phase2.c:backup_phase2_server_all", "src/server/backup_phase3.c:backup_phase3_server_all", "src/server/resume.c:do_resume", "src/server/rubble.c:check_for_rubble_and_clean", "src/server/rubble.c:recover_working", "src/server/rubble.c:working_delete", "src/fsops.c:recursive_delete", "src/client/backup_phase2.c:do_backup_phase2_client"]}
{"id": "C112", "title": "bedup works on nothing but what it is told, and on no client that another bedup is at", "statement": "bedup refuses options that contradict each other before it touches anything. With -n it works on the directories that are named and no others; without it on the storage directories of the clients that have a valid name and a regular configuration file that can be loaded, and, if groups are given, are in one of them, and on all of these whose lock it can get. It deletes files only with -n and -d, makes links only with -l, and keeps to the limit on links of the configuration or of -m. It holds the lock of each client it has worked on until all is done, so that two of them are never at the same client.", "quantifier": "all rows of options and arguments, all lists of groups, all contents of clientconfdir with all configurations of clients, all outcomes of getting locks and of the work on a directory, any number of runs at the same time in any interleaving", "why_tests_cant": "it ranges over all command lines, configurations and interleavings of runs", "anchors": ["src/server/bedup.c:run_bedup", "src/server/bedup.c:process_from_conf", "src/server/bedup.c:iterate_over_clients", "src/server/bedup.c:process_from_command_line", "src/server/bedup.c:in_group", "src/server/bedup.c:get_link", "src/lock.c:lock_get", "src/conffile.c:cname_valid"]}
{"id": "C113", "title": "burp runs as the user and the group that it is told to run as, or not at all", "statement": "Started by root with the settings user and group, burp goes on only if its real, effective and saved ids are all those of that user and that group, it is in no groups but that one and those the user is a member of, and it has no capability left, or with readall only the one for reading everything; after that no system call gives anything back. With an unknown user or group, or if any call fails, it does not go on. The process of the server for a client runs as the user and group of that client, which may be its own, or refuses the client.", "quantifier": "all user and group databases, all settings of server and client, all credentials burp is started with, all failures of system calls, all sequences of calls afterwards", "why_tests_cant": "it ranges over all databases, starting credentials and later calls; a test would have to be root on machines of every kind", "anchors": ["src/handy.c:chuser_and_or_chgrp", "src/prog.c:real_main", "src/server/child.c:child"]}
{"id": "C114", "title": "the certificate authority of the server is set up whole, once, or not at all", "statement": "With ca_conf set, a server that starts where there is no certificate authority makes one, and goes on only if the directory, the file for Diffie-Hellman, the list of revoked certificates and the links to its certificates and its key are there. An authority that is there is never changed or removed. After a failure the next start begins again. Nothing outside of the directory and the four files of the settings is touched, wherever the setup is cut; and a setup that was cut is made good by a later start.", "quantifier": "all configurations, all contents of ca_conf, all states of the file system, all outcomes of burp_ca at each step, all points at which the server is killed, any number of starts", "why_tests_cant": "it ranges over all cut points and all outcomes of an external program, over any number of starts", "anchors": ["src/server/ca.c:ca_server_setup", "src/server/ca.c:ca_init", "src/server/ca.c:maybe_make_dhfile", "src/server/ca.c:maybe_make_crl", "src/server/ca.c:get_ca_dir", "src/server/ca.c:symlink_file", "src/fsops.c:recursive_delete"]}
{"id": "C115", "title": "sessions for one client at the same time do not spoil each other", "statement": "Any number of sessions for one client may run at the same time. At each moment at most one of them writes (a backup or a deletion) and at most one restores a given backup. No session waits for another: each ends after a number of steps of its own, and a lock is never left behind, also where sessions are killed. The only one that writes is always served. A restore of a backup that is there, and that nobody else restores, sends the whole of the backup, picked by the list that its own client sent, whatever the other sessions do.", "quantifier": "all sets of sessions, all backups, all lists, all interleavings of their steps, all points at which any of them is killed", "why_tests_cant": "it ranges over all interleavings of any number of processes", "anchors": ["src/server/run_action.c:run_action_server_do", "src/server/run_action.c:get_lock_sdirs_for_write", "src/server/run_action.c:run_restore", "src/server/restore.c:restore_manifest", "src/server/restore.c:do_restore_server", "src/server/restore.c:maybe_open_restore_list", "src/server/restore.c:parallelism_warnings", "src/lock.c:lock_release"]}
{"id": "C116", "title": "the things of each client have places of their own on the server", "statement": "Everything that the server keeps for a client is in one directory, which has the name of the client and is in the directory of the settings. Each thing has a place of its own there, which is not that of a backup. Nothing that is kept for one client is at, above or inside of something that is kept for another; nor are their locks, wherever the settings put them. A server that goes on with a backup finds the same places as the one that began it.", "quantifier": "all settings, all acceptable names of clients, all names of backups", "why_tests_cant": "it ranges over all names of clients and all paths in the settings", "anchors": ["src/server/sdirs.c:sdirs_init", "src/server/sdirs.c:do_dirs", "src/server/sdirs.c:do_common_dirs", "src/server/sdirs.c:do_lock_dirs", "src/server/sdirs.c:sdirs_create_real_working", "src/server/sdirs.c:sdirs_get_real_working_from_symlink", "src/server/sdirs.c:sdirs_get_real_manifest"]}
{"id": "C117", "title": "the server listens at each address it is told, by the rules for it, or does not start", "statement": "A server that has started listens at every address of listen and listen_status and at no other, in that order: at the first for clients, at the others for monitors. If any of them cannot be listened on it does not start. A connection is closed at once if and only if the networks for that kind of address do not have it. Sockets that systemd gives are all taken, each for what its port is for, and a server that gets one that it has no address for does not start.", "quantifier": "all settings, all behaviours of the system when sockets are opened, all sockets that systemd gives", "why_tests_cant": "it ranges over all lists of addresses and networks and all failures of the system on the way", "anchors": ["src/server/main.c:split_addr", "src/server/main.c:init_listen_socket", "src/server/main.c:init_listen_sockets", "src/server/main.c:check_addr_for_desc", "src/server/main.c:socket_activated_init_listen_sockets", "src/server/main.c:run_server", "src/server/main.c:process_incoming_client"]}
{"id": "C118", "title": "entries without data leave the manifest, and no others, wherever the server is killed", "statement": "However often the server was killed while it shuffled the files of a backup, and at whatever point: once that ends well, every entry of the manifest that has data has it in its place; the entries that are missing are some whose data could not be put together; the others are all there, in their order. At any time there is a manifest with all entries that did not fail. A run without other errors ends well from wherever the server was killed, and a further run changes nothing.", "quantifier": "all manifests, all points at which the server is killed, any number of times, all data that cannot be put together, different each time", "why_tests_cant": "it ranges over all crash points of any number of runs", "anchors": ["src/server/backup_phase4.c:atomic_data_jiggle", "src/server/backup_phase4.c:maybe_delete_files_from_manifest", "src/server/backup_phase4.c:forward_patch_and_reverse_diff", "src/fsops.c:do_rename"]}
{"id": "C119", "title": "the file of statistics has the statistics, or those from before", "statement": "After a backup, a restore or a verification the server writes the statistics to the file of that action, and no other file. Wherever it is killed or fails, the file is as it was before, or has the new statistics; if it reports success, the file has the statistics as a whole and the temporary file is gone.", "quantifier": "all actions, texts, contents of the directory, errors, amounts taken by each write and points at which the server is killed", "why_tests_cant": "it ranges over all crash points and all amounts that the system may take at each write", "anchors": ["src/cntr.c:cntr_stats_to_file", "src/server/monitor/json_output.c:write_all", "src/asfd.c:asfd_write", "src/asfd.c:asfd_append_all_to_write_buffer"]}
{"id": "C120", "title": "things are restored to the directory that was named, which is made if it is not there", "statement": "A restore with -d changes things only at the place that the option names, seen from the directory where the client is run and with all links followed, and below it, whatever the server sends. If there is nothing with that name, but there is a directory to make it in, it is made; if it can not be found or made, or is not a directory, nothing is changed. With -d / everything goes to where it came from, wherever the client is run.", "quantifier": "all file systems, with links, all texts of the option, all current directories, all options to strip, all lists of entries", "why_tests_cant": "it ranges over all file systems with links and all that a server may send", "anchors": ["src/client/restore.c:get_restore_desired_dir", "src/client/restore.c:do_restore_client", "src/client/restore.c:canonicalise", "src/prepend.c:prepend_slash"]}
{"id": "C121", "title": "the monitor client passes on what is typed and what is answered", "statement": "With burp -a monitor, each complete line of the standard input goes to the server as one request, in order, without white space at its end, and lines that are then empty are left out; what the server answers is printed, all of it, in order, and nothing else is. It makes no difference how the input and the output are split into pieces. Nothing waits for ever while neither side has ended. What was asked before the input ended is answered.", "quantifier": "all texts that are typed, all answers, all ways to split reading and writing, all orders of what happens", "why_tests_cant": "it ranges over all schedules of three descriptors and all splits of their data", "anchors": ["src/client/monitor.c:monitor_client_main_loop", "src/client/monitor.c:copy_input_to_output", "src/asfd.c:parse_readbuf_line_buf", "src/asfd.c:asfd_write", "src/asfd.c:asfd_append_all_to_write_buffer", "src/async.c:async_io"]}
{"id": "C122", "title": "each warning is counted, sent, and has a line of its own in the logs of both sides", "statement": "Each warning that a side gives is counted once, is sent to the other side and counted there, and has one line of its own with its whole text in the log of each side, after the time, in the order in which they were given; no line is in the log that was not given. What has once been written to a log stays. While a log file is set everything goes there; otherwise to syslog and the standard output, as the configuration says; if it can not be opened, what was set before holds. In an estimate warnings are only printed.", "quantifier": "all sequences of warnings, messages, received warnings and choices of the log file, all texts", "why_tests_cant": "it ranges over all texts, also those with names of files, and all sequences", "anchors": ["src/log.c:logp", "src/log.c:logw", "src/log.c:logm", "src/log.c:log_recvd", "src/log.c:log_fzp_set"]}
{"id": "C123", "title": "the sizes and durations that are printed are the real ones", "statement": "The duration of a backup that is printed, read as days, hours, minutes and seconds, is the real one to the second, so that different durations look different. A size of at least 1024 bytes, and only such a size, is printed with a unit as well; the number before the unit, times the unit, is the size up to the precision of a float, and is at least 1 and less than 1024.", "quantifier": "all durations, all sizes", "why_tests_cant": "it ranges over all numbers, and the large ones are not met in tests", "anchors": ["src/times.c:time_taken", "src/cntr.c:bytes_to_human"]}
{"id": "C124", "title": "a program that burp runs has the descriptors it should have, and no others", "statement": "Whatever descriptors are open when burp runs a program, even with standard input, output or error closed, the program starts with each of the three that burp wants being the right end of the right pipe. It gets none of the other descriptors that burp has open. A standard descriptor that burp does not want is burp's own. Burp keeps exactly the other ends of the pipes, besides what it had open before, so that each side sees when the other has gone; if the program cannot be run, nothing stays open.", "quantifier": "all tables of open descriptors, all choices of the three streams, failures of each pipe and of the fork", "why_tests_cant": "it ranges over all tables of descriptors, and the unusual ones, with closed standard descriptors or very many open ones, are not met in tests", "anchors": ["src/forkchild.c:forkchild", "src/forkchild.c:forkchild_fd", "src/forkchild.c:do_forkchild"]}
{"id": "C125", "title": "what a script is told about the certificate of the other side is harmless and true", "statement": "Whatever is in the certificate of a client, the environment of the scripts that the server runs for it changes only in variables whose names begin with X509_PEER_ or X509_ISSUER_, and the values put there have only letters, digits, blanks and the characters _-.:@. A field of the issuer is never taken from the subject, nor the dates and the serial number from a field of a name. The common name that a script sees is the one that the server compared with the name of the client.", "quantifier": "all certificates, all environments", "why_tests_cant": "it ranges over all certificates, which are made by others", "anchors": ["src/ssl.c:sanitise", "src/ssl.c:setenv_x509", "src/ssl.c:setenv_x509_date", "src/ssl.c:setenv_x509_serialnumber", "src/ssl.c:ssl_check_cert"]}
{"id": "C126", "title": "two files are found to be the same exactly if they are", "statement": "When the client has been given a new name for the server and writes its configuration again, it leaves the old file alone exactly if the new one has the same bytes, however long they are; a file that is missing or cannot be read is not taken to be the same.", "quantifier": "all contents of the two files, all places at which reading can fail", "why_tests_cant": "it ranges over all contents, and files that are longer than a buffer or that cannot be read are not met in tests", "anchors": ["src/fsops.c:files_equal", "src/client/ca.c:rewrite_client_conf"]}
{"id": "C127", "title": "a message that was not expected is shown in the log as text", "statement": "When the other side sends a message that was not expected, what is put into the log of it has only characters that a terminal shows as they are, on one line, and is at most 255 bytes long. Different messages look different if they are text and fit. Of data that is not text only the length is shown, and that it is such data.", "quantifier": "all commands and contents of messages", "why_tests_cant": "it ranges over all messages, which are made by the other side", "anchors": ["src/iobuf.c:is_printable", "src/iobuf.c:iobuf_to_printable", "src/iobuf.c:iobuf_log_unexpected", "src/asfd.c:parse_readbuf_standard"]}
{"id": "C128", "title": "the time of a backup is read as it was written", "statement": "The time of a backup that the server has written is read again as the same moment, also when its clocks or its time zone have been changed between. So a client that is to be backed up at intervals is never backed up earlier, nor refused later, than the interval after the last time.", "quantifier": "all moments, all time zones and ways in which clocks are changed, every mktime that POSIX allows, all intervals", "why_tests_cant": "it ranges over all moments and time zones; what goes wrong does so in one hour of a year", "anchors": ["src/server/timestamp.c:timestamp_get_new", "src/server/timestamp.c:timestamp_to_long", "src/server/timer.c:check_interval"]}
{"id": "C129", "title": "the copy of the current backup has all that is in it", "statement": "When the server copies the current backup by hard links, to make the next one of it, and reports that the copy has been made, the copy has the same directories and files at the same places with the same contents, and nothing else. No file gets more names than the limit in the configuration. If a file cannot be linked or written, the copy is not used.", "quantifier": "all trees of files, all limits, failures of lstat, link, reading, writing and flushing at each file", "why_tests_cant": "it ranges over all trees and all places at which something can fail", "anchors": ["src/server/link.c:recursive_hardlink", "src/server/link.c:do_link", "src/server/link.c:duplicate_file", "src/server/backup_phase4.c:backup_phase4_server_all"]}
{"id": "C130", "title": "an access control list that is not saved says no more than the mode", "statement": "If the client finds that a file has no access control list to save, then everybody may do with the file exactly what its mode says, and a directory has no list for the files that are made in it. A list with an entry for a named user or group, or with a mask, is saved. A list that only repeats the mode is not.", "quantifier": "all access control lists, all owners, groups, users, sets of groups and permissions that are asked for", "why_tests_cant": "it ranges over all lists and over everybody who may ask for access", "anchors": ["src/client/acl.c:has_acl", "src/client/acl.c:acl_is_trivial", "src/client/acl.c:acl_contains_something", "src/client/acl.c:default_acl_contains_something"]}
