# Formal model of burp in Lean 4

Subject: the burp backup program, C source in `/repo/src` at the pinned commit. The source is
read as text only; nothing is compiled or run. All line numbers in the model refer to that tree.

## Layout

* `lean/Verif/Model/*.lean`: the model. One Lean definition per C function (or per loop of a C
  function), each with a comment naming the file and lines that it models and any simplification.
* `lean/Verif/Spec/*.lean`: small specifications written without the model's helpers.
* `lean/Verif/Lemmas/*.lean`: helper lemmas, not claims.
* `lean/Verif/Props/*.lean`: the property theorems (these are the claims), with, beside each,
  an `example` showing that its hypotheses are met by a concrete non-trivial case. Where the code
  does not satisfy the property, the theorem `..._violated` proves the negation from a witness, and
  the strongest true part is named `..._partial`.
* `MANIFEST.json`: property id to theorem names and status.
* `seeded/LOG.jsonl`: the log of wrong programs the theorems were tested against.

## Modelling conventions

* A C string is the list of its bytes without the terminating NUL (`List UInt8`); reading the NUL
  is reading past the end of the list.
* Integers are `Nat`/`Int` unless the property is about width or wrap-around, then `BitVec`,
  `UInt64`, or explicit `% 2^k`.
* `malloc` failure, logging, and printing are left out. A function's failure caused only by memory
  exhaustion is therefore not an outcome of the model.
* Functions which report `-1/0/1` return a small inductive type or `Option`/`Except`.
* Undefined behaviour is a distinct outcome or an explicit precondition, named in the comment.
* The file system is modelled, where needed, as a map from names to contents or as a record of the
  directory entries which the code touches; each system call is one atomic step, and a crash may
  happen between any two steps. `rename(2)` is atomic (a trusted assumption).
* External algorithms (librsync signature, delta and patch; md5; crypt; zlib; regex) are
  parameters, and the laws assumed of them are explicit hypotheses of the theorems that use them.

## Trusted base

* Lean 4.33.0's kernel.
* The axioms `propext`, `Classical.choice` and `Quot.sound` at most (checked with `#print axioms` in
  `lean/Verif/Audit.lean`, which lists every property theorem). No axioms are added, no `sorry`, no
  `native_decide`, no `bv_decide`.
* The reading of the C code: the model is tied to the code only by the citations.

## Plan per property

| id | what is modelled | how it is proved |
|----|------------------|------------------|
| C01 | `to_base64`, `from_base64` on bytes, 64-bit wrap-around | round trip by induction on digits |
| C02 | `attribs_encode`, `attribs_decode` field sequence | from C01, by induction over the 19 fields; length bound |
| C03 | `pathcmp` | lexicographic order through an injective key; induction |
| C04 | `pathcmp` | interval property by induction on the common prefix |
| C05 | `iobuf_pathcmp` | negation by witness for metadata/VSS footer; order laws on the rest |
| C06 | `is_subdir` pointer loop | refinement to "equal or prefix followed by a separator" |
| C07 | `has_dot_component`, `is_absolute` | refinement to splitting on '/' |
| C08 | `send_msg_fzp`, `fzp_read_ensure`, `do_iobuf_fill_from_fzp` | round trip; hex field lemma |
| C09 | `sbuf_to_manifest`, `parse_cmd`, `sbuf_fill` | round trip by induction on entries |
| C10 | as C08/C09 on every prefix | prefix lemma; the silent end of file after a record head is a finding |
| C11 | `asfd` write framing and read parsing as a state machine | simulation: chunks never matter |
| C12 | same, arbitrary peer bytes | invariant over all read/parse steps |
| C13 | `asfd_append_all_to_write_buffer`, `asfd_do_write` | invariant: sent ++ buffered = frames accepted |
| C14 | `parse_cmd` | invariant over arbitrary record sequences |
| C15 | `process_next_file_from_manios` merge walk | induction on both lists |
| C16 | `maybe_do_delta_stuff` decision table | case analysis |
| C17 | `backup_phase3_server_all` merge | permutation and sortedness; duplicates are a finding |
| C18 | `maybe_delete_files_from_manifest` | induction; equals a filter |
| C19 | `dpth_incr`, `dpth_mk` | counter value increases; wrap-around is a finding |
| C20 | `dpth_set_from_string` | order isomorphism text/number |
| C21-C23 | `range_loop`, `do_delete_backups`, `delete_backups`, `setup_indices` | invariants over passes, termination measure |
| C24, C25 | history model: backups with full copies, reverse deltas, hard links | invariant over all histories of backup/delete |
| C26 | `need_hardlinked_archive` | arithmetic |
| C27 | `jiggle` as a list of file system steps with a crash after any of them | invariant and re-run |
| C28 | symlink/rename protocol with crash points | invariant over reachable states |
| C29 | `recover_working`, `check_for_rubble_and_clean` | case analysis |
| C30 | `do_resume_work` on lists | induction |
| C31 | `restore_ent`, `restore_remaining_dirs` | stack invariant |
| C32 | `do_restore_server` selection | case analysis and list lemmas |
| C33 | `restore_list_check`, `srestore_matches` | merge walk; prefix without separator is a finding |
| C34 | `check_quota` | case analysis |
| C35 | `timer.c` functions | case analysis, arithmetic |
| C36 | `auth.c` functions with the crypt library as parameter | case analysis; failing crypt is a finding |
| C37 | `ipacl.c` on bit vectors | bit-level equivalence |
| C38 | `strlist.c` | sorted insertion |
| C39 | `conf_switch_to_orig_client` | case analysis |
| C40 | `cname_valid`, `prepend_s` | list lemmas |
| C41 | `file_is_included_no_incext` directory part | fold invariant |
| C42 | `finalise_start_dirs` | induction on sorted lists |
| C43 | `diff_manifests` | merge walk |
| C44 | `check_browsedir` over a manifest | induction on a sorted manifest |
| C45 | `check_files` over a file tree with inodes | invariant over all steps |
| C46 | `linkhash.c`, hard link branch of `my_send_file_w` | refinement to first-occurrence map |
| C47 | `cntr.c` | invariant over updates |
| C48 | `vss_strip.c` | induction on streams |
| C49 | the client's restore of one entry (`restore_switch.c`, `client/restore.c`, `mkpath`, `attribs_set`) over a file system with directories, files, inodes and symbolic links; `realpath(3)` as a bounded walk | invariant over all entry sequences; each excluded case has a witness. Races with other processes are outside the model |
| C50 | `restore_interrupt` and the sender loop | induction on the stream |
| C51 | `find_logic.c` evaluator | refinement on well-formed expressions |
| C52 | `conf_get_pair`, `remove_quotes` | round trip |
| C53 | `prepend.c` | list lemmas |
| C54 | `lock.c` over an abstract lock | invariant over all schedules |
| C55 | `run_action_server_do` dispatch | case analysis |
| C56 | `get_new_bno`, `setup_indices` | induction |
| C57 | `transfer_gzfile_in` | induction on the message stream |
| C58 | `verify_file` with md5 as parameter | case analysis |
| C59 | seed rewriting | list lemmas |
| C60 | `get_file_size` | arithmetic |
| C61 | `in_exclude_ext`, `in_include_ext`, and their sorting | refinement to "the text after the last dot" |
| C62 | `find_files`, `process_entries_in_directory`, `find_start_dirs` over a tree | induction on the tree |
| C63 | `file_size_match` | case analysis |
| C64 | `hard_link_substitution` over a manifest | induction on the manifest |
| C65 | `lock.c` used for the server's own lock | invariant over all schedules |
| C66 | `cntr_to_str`, `str_to_cntr` | round trip |
| C67 | `strip_path_components`, `strip_from_path` | refinement to dropping components |
| C68 | `overwrite_ok` and its callers, on the file system of C49 | invariant over all entry sequences |
| C69 | a whole backup: phases 2, 3 and 4 composed, in any history with deletions | invariant over histories; composition of C15, C16, C18, C19 and C24 |
| C70 | admission in `server/main.c`, `server/ca.c`, `ssl.c`, over a CA with files and serial numbers | decision logic; invariant over all sequences of connections |
| C71 | `version_to_long` | value for all version strings, and so the order |
| C72 | the list of descriptors and children of `run_server` as a transition system | invariant over all event sequences |
| C73 | the table of settings, reading of files and command line, merging with the global settings | what a sequence of lines does to each setting, by induction over the lines |
| C74 | what a client does with settings that come from the server, for messages of any content | by cases on what the client allows; the new prefix is computed |
| C75 | writing settings as lines, receiving them, reading them into the settings of the other side | round trip: each line reads back as the setting it was written from; then by induction over the table of settings |
| C76 | both programs of the negotiation, as processes with a queue in each direction | one schedule is followed to its end by composing blocks; the diamond property makes every schedule end the same way; invariants over arbitrary messages for the server alone |
| C77 | the options as far as they say what to do, the request of the client, the server's parsing of it (as for C55) and the choice of backups for restoring, listing, comparing and deleting | request and parsing are inverse on texts without the separator; composed with the theorems of C21, C32 and C43 |
| C78 | the client as a whole: attempts with servers, answers, scripts, results; what connections, scripts and the work give are parameters | all courses of an attempt are enumerated once as an inductive relation, and each claim is proved by cases on it; induction over the servers |
| C79 | the server process of a monitor: its list of clients, reading of the disk, lines of the main process, requests and answers as fields; files, directories and what settings come to are parameters | an invariant over histories of events says that the list is as the disk was when it was last read; round trip of the lines of the main process; each answer is traced to the list |
| C80 | the tree that `cache_load` makes of a manifest, the way through it, and a process that answers one question after another | induction from the end of the manifest: the children of a directory are those of the sublist of records below it; burp's order makes names lie together (C04); induction over histories of questions |
| C81 | the writer and the reader of the records on Linux, the reading of values on FreeBSD, with what the system refuses as a parameter | round trip by induction over the list of attributes and over the records; the number with eight digits by induction over the digits; prefixes of the data by induction over the records |
| C82 | both sides of the upgrade, with the files of the server as a function from paths, over the transfer of files of C57 | cases on what the server has; the transfers by C57_intact and C57_accepted; induction over the messages before the answer |
| C83 | the scripts around the requests of C55, and the notifications, with the results of scripts and of a backup as parameters | cases on how a backup comes to be begun; what is notified is added to what is done |
| C84 | the setup as a list of operations on a file system, with what the server and the key program do as parameters; the rewriting of the configuration line by line over the parser of C52 | cases on how far it gets; induction over the pieces the file is read in; prefixes of the operations are the points of interruption |
| C85 | the time-outs of all connections through calls of async_io, with what is wanted on each connection and what select says chosen freely | induction over the calls, with the time left of a connection bounded below by the time since its last activity, and above by it divided by the pause between calls |
| C86 | check_ratelimit and the writing functions over attempts to write, with the clock and the operating system chosen freely | induction over the attempts: the bytes counted are the bytes sent, the beginning is that of the first attempt; arithmetic of the division |
| C87 | both buffers, with records between them, and what TLS keeps of a record | what is written between two empty buffers is a burst of whole messages, no larger than a buffer; invariant: a receiver is within one burst, so that there is room for the whole record; a measure for the delivery |
| C88 | the messages of the server, with the memory behind a path; the loop of the client with what it prints, and the buffer of a long line | induction over the entries; a bound for the length of a line; reading back with the reader of C08, and C33 for the restore |
| C89 | the recursive deletion with its loop and results, over the file system with links of C49; the renames and links of deleting a backup | an invariant of every step (only below, only removed), induction over the depth and the entries; composition of the steps for a backup |
| C90 | the two buffers with what has been read and written, the callbacks, and the loops around them; a librsync job is any machine with its interface | an invariant over all turns: what the job has used and what is waiting is what was read, what it put out is what was written and what is waiting; a measure that goes down in every turn without a failure; composition for a changed file |
| C91 | a file system with inodes, whose calls can each fail, and where making and removing an entry changes the time of its directory; the functions that restore each kind of entry | each function first works on the way to its path, then only on the file there; what was restored stays so under every later entry; induction over the stream |
| C92 | a directory of files with what can be read from each, and what there was after every call | each function changes only its own temporary file until the renaming; induction over the pieces for the contents |
| C93 | the calls that yajl makes, on the side of the server what is given to the generator, on the side of the client the global variables | each piece of an answer is followed by an equation for the state after it; an invariant over all calls for the selection |
| C94 | the generator, the lexer byte by byte, the parser as a stack of states, the line buffer and `json_input` | lexing a text and more text is lexing the text and then the more; the tokens of what the generator writes are followed through the parser; an invariant ties the calls so far to the stack |
| C95 | `find_files` with all that it looks at: `lstat`, `readlink`, directories that cannot be opened or read, devices and types of file systems, `nobackup`, fifos and block devices, the attributes left over from the file before, the table of hard links; the messages, and the loop of the server | the walk is a list of calls that does not depend on what is remembered; an invariant ties the table of hard links to the entries so far; completeness by induction on what is to be looked at |
| C96 | `getopt` over words, the loop over options, and all of `real_main` down to `client` and `server` | a relation between words and options that is an inverse of `getopt`; the state after the loop is a function of the list of options, by induction on it |
| C97 | reading the list in the second phase, `attribs_decode` of each entry; the walk of the first phase and the sessions are those of C95 and C69 | the list is what was told (C95), the entries are in order because what is walked is a part of what the scan of C62 finds, so the hypotheses of C69 hold; `C69_nothing_missing` and `C69_restores_what_was_there` give the rest |
| C98 | the loop of the server, with its condition for reading and the path it waits for, the client as a machine that reads only when it has nothing to write, both write buffers with the bytes they hold, the network in both directions; receiving is that of C50 | what the client has yet to read and what the server has yet to read are suffixes of two fixed lists in every state, so the result is the same for every schedule; a number that gets less with each step; a case distinction of the states without a step |
| C99 | the server as a list of writes and looks, the client as a machine that reads only when it has nothing to write, both write buffers with the bytes they hold, the network in both directions | the client that has read all that was written so far is a function of what the server has done, from which follows that an interrupt is only ever acted on for a file that is being skipped, and that breaking off a file that is skipped changes nothing; what the server has yet to read is a suffix of a fixed list in every state; a number that gets less with each step; a case distinction of the states without a step; the stall by running on without the server reading |
| C100 | the disk as paths, inodes and the links working and finishing; acts of the server, with the rules they keep to; bedup as a machine of single system calls, with any order of files | an invariant: inodes that are open for writing are only below backups that are being made, and what bedup holds is below finished ones, whose paths have stood for the same data all along; from this, a relation to the disk that the server would have alone, kept by every step |
| C101 | files as bytes, the pieces that fgets gives, dot lines, the loop over the files found, recursion limited by file descriptors | lines are recovered from pieces; induction over the number of descriptors shows that reading is accepted just if the independent relation gives lines and each is accepted; the relation has no lines for inclusions without end |
| C102 | the checks of the global file for server and client, on the settings of C73 read from the files of C101 | decision logic: accepted just if an independent list of conditions holds; what is filled in is followed through |
| C103 | the checks of lengths, data paths and `mkpath` on a directory with the limits of the operating system | invariant of the directory by induction on the files: the files so far and the directories that lead to them |
| C104 | the loop over the directory with the links, timestamps and buffers | every turn of the loop adds the entry or not, independently of the others; order from the sort |
| C105 | the form of the stored data, the entries of the manifests and the reverse deltas, with zlib, ciphers and librsync as parameters | invariant by induction on histories: the data are in the form that the entries say, which is the same for all backups that share them; restore decodes it |
| C106 | the static variables of child.c, the timer of C35, the file backup, and the sequence of entries | induction on the sequence of events, with an invariant on the time of the last check and on the lines written; negation by examples |
| C107 | the two files of counters, the rows written by phase 2, and the counting done while resuming, with the counters of C47 and the walk and the positions of C04 and C30 | the walk can be cut where both its lists are cut at the same place; records are in order, and only a deletion can follow in the same place; what counters do commutes; induction on the interruptions; negation by an example for bytes, for all runs for warnings |
| C108 | `do_resume` on the bytes of the files: positions are numbers of bytes, the readers are those of C09, truncation, appending, rows of counters, and the storage paths also in an entry that is not whole | reading is local: what is read before a position does not depend on what follows; each loop is refined by the one on lists of entries (C30, C107) with its position behind a number of whole entries; then induction on the interruptions |
| C109 | `run_server` and `server` turn by turn over the pipes of C11 and C13: reading and writing, failing pipes, new children, passing on, the list of the clients, ended children, signals | invariants by induction on the turns: per child, what was passed on is what was taken from its pipe; per monitor, what was accepted is a sublist of what was passed on; each child has a pipe or its pipe failed |
| C110 | `run_script_to_buf` with its loop over two pipes, `fgets` over what is there, the signal handler, the exit status, the lines in the log; writes, closings, the end of the child and answers of `select` are events | invariants by induction on the events: pieces read and bytes left are what was written; whole lines stay whole; a decreasing count of bytes for the end |
| C111 | the operations on the directory of a backup from the end of the scan on, in their order, cut off anywhere; what the next connection makes of what is left | an invariant at every point of every list of operations, by induction on operations and on connections |
| C112 | `run_bedup` with its options as `getopt` gives them, the list of groups, the loop over the clients and its locks; a run is the list of the locks it gets and the directories it works on | induction on the options, on the characters of the list, on the clients; interleavings of lists of events |
| C113 | `chuser_and_or_chgrp` as a list of steps, each a system call that depends on the credentials; credentials with three ids each, groups and capabilities; the main process of a server and the process for a client one after the other | case analysis of the steps; an invariant over all later calls |
| C114 | `ca_server_setup` with all its parts as a list of changes to a file system, `burp_ca` as a parameter | induction on the lists of changes, on the lines of ca_conf and on the starts; the state is followed through the steps |
| C115 | sessions as processes over the shared directory of a client: backups, the two kinds of locks and the file of the list; events are steps and kills in any order | invariants by induction on the events, and a measure of the steps left |
| C116 | `sdirs_init` and what it calls as functions from settings to paths; places as lists of names | the names on each path are computed with C53 and C40; two paths are compared where they part |
| C117 | the start of `run_server` as a function from the settings and what the system does to the sockets that are watched | by induction on the lists of addresses and of sockets given |
| C118 | `atomic_data_jiggle` and `maybe_delete_files_from_manifest` as lists of states of the disc, with renames that are not atomic and failures that differ from run to run | an invariant of what is noted, kept by every operation; C18's merge for the end |
| C119 | `cntr_stats_to_file` as a list of states of the directory, with the buffer of `asfd_write` and any amounts taken | an invariant of file, offset and buffer, kept by every write |
| C120 | `get_restore_desired_dir` and the two ways through `do_restore_client` on the file system of C49 | a lookup finds the same after something is added; C49's invariant for the rest; a lookup below a file is an error |
| C121 | the loop over the server, the standard input and the standard output, by what happens to their buffers | an invariant over all schedules; progress by induction on what was typed |
| C122 | the functions of `src/log.c` on a state with the files, syslog and what is sent | kept and counted by induction over all that a program does; the lines by induction over the warnings |
| C123 | `time_taken` with its buffers, `bytes_to_human` with the rounding to a float | what is printed is cut at the colons and read back; arithmetic |
| C124 | a table of descriptors in which a new one is the lowest that is free; `forkchild`, `forkchild_fd` and the child up to `execv` | what `pipe`, `dup2` and the closing loop do to each descriptor, by induction on the table; then case analysis on the three pipes |
| C125 | `sanitise`, `setenv_x509` and the other two, `setenv`, and the comparison of the name in `ssl_check_cert` | which bytes are kept, by the kernel over all 256; the rest by induction on the fields |
| C126 | `files_equal` with its buffers, over files of which reading can fail | induction on the length of what is left |
| C127 | `is_printable`, `iobuf_to_printable` with its buffer | induction on the message; the length in hexadecimal has four digits |
| C128 | times as clocks show them, with the zone; `timestamp_get_new`, `timestamp_to_long`, the end of `check_interval`; any `mktime` that is as POSIX says | arithmetic, from what POSIX says of `mktime` |
| C129 | trees of files, with what goes wrong at each; `recursive_hardlink`, `do_link`, `duplicate_file` | induction on the tree |
| C130 | lists of entries; `has_acl`; the access check of acl(5) | induction on the list, case analysis |

## What is modelled

Each line names the source file under `/repo/src`, what of it is in the model, and the module.

| source | modelled | module |
|--------|----------|--------|
| `base64.c` | `to_base64`, `from_base64`, `bin_to_base64` alphabet | Base64 |
| `attribs.c` | `attribs_encode`, `attribs_decode`; `attribs_set` as far as owner, mode and which name they go to | Attribs, Confine |
| `pathcmp.c` | all | PathCmp |
| `iobuf.c`, `msg.c`, `fzp.c` (reads of a given length) | writing and reading of one record | Iobuf |
| `sbuf.c`, `cmd.c` | filling from records, writing to the manifest, classes of commands | Sbuf, Cmd |
| `asfd.c` | read buffer parsing, write buffering; not the TLS handshake | Asfd |
| `strlist.c`, `prepend.c`, `ipacl.c` | all (`inet_pton` as a parameter) | Strlist, Prepend, Ipacl |
| `lock.c` | all, over an abstract record lock | Lock |
| `linkhash.c` | all | Find |
| `cntr.c` | counting, table of counters, text and JSON rows; not the printing to a terminal | Cntr |
| `conf.c` | the table of settings and their values; not the conversion to text for logs | Confs |
| `incexc_send.c`, `incexc_recv.c` | all | SendConf |
| `conffile.c` | lines, all settings, includes and excludes, sizes, keep values, precedence, switching of client, passwords, seeding, start directories; not the checks of mandatory settings, and not Windows | ConfLine, Confs, Incexc, Find, Switch, Retention, Auth, Seed, SendConf |
| `transfer.c`, `handy_extra.c`, `handy.c` | sending and receiving of whole files, compressed or not; sizes; path predicates | Transfer, Interrupt, Find |
| `bfile.c` (VSS part), `server/vss_strip.c` | all of stripping | VssStrip |
| `client/find.c`, `find_logic.c` | selection of files, walk, expressions; cross-filesystem tests and `nobackup` are taken as "directory left out" | Find, Scan, FindLogic |
| `client/backup_phase2.c` | answers to requests, interrupts | Interrupt |
| `client/restore.c`, `restore_switch.c`, `fsops.c` (`mkpath`) | which names are touched and how, stripping, overwrite protection | Confine |
| `server/auth.c` | all (`crypt` as a parameter) | Auth |
| `server/backup_phase1.c` | quota | Quota |
| `server/backup_phase2.c` | comparison with the previous manifest, decision for each file, the exchange with the client for files | Phase2, Interrupt |
| `server/backup_phase3.c` | merge of unchanged and changed | Manifest |
| `server/backup_phase4.c` | deltas, hard links, jiggle, order of renames | History, Jiggle, Links |
| `server/backup.c` | the phases of a backup put together | Session |
| `server/bu_get.c`, `timestamp.c`, `bu.c` | listing, numbers | BackupNumber, Retention |
| `server/delete.c`, `deleteme.c` | which backups are deleted; order of steps | Retention, Links |
| `server/dpth.c` | all except creating directories | Dpth |
| `server/diff.c`, `list.c` | comparison, browsing | Diff, Browse |
| `server/manio.c` | seeding | Seed |
| `client/extra_comms.c`, `server/extra_comms.c` | all except upgrades of the client | Negotiate, Switch |
| `server/quota.c`, `timer.c` | all | Quota, Timer |
| `server/restore.c`, `restore_sbuf.c` | selection of backups and entries, delta chain, verification, hard links, directories last | Restore, History, Verify |
| `server/resume.c`, `rubble.c` | all decisions; file positions as list positions | Resume, Rubble |
| `server/run_action.c` | dispatch and refusals | RunAction |
| `client/main.c` | all, with connecting, negotiating and the work itself as parameters; not the port, which is not seen | ClientMain |
| `run_script.c` | arguments and return values | ClientMain |
| `prog.c` | defaults of the backups (lines 427-449), slashes at the end of a directory | Request |
| `client/list.c`, `client/delete.c`, `client/restore.c` | the request that is sent | Request |
| `server/list.c` | which backups are listed, and whether by name or contents; which entries of a backup | Request, Browse |
| `server/bedup.c` | comparison, linking, over a file system with inodes | Bedup |
| `server/main.c` | log in order, locks; admission of connections, limits on children | Lock, Cntr, Admission, Children |
| `server/ca.c`, `ssl.c`, `configs/certs/CA/burp_ca.in` | signing of certificates, revocation, the name in a certificate; TLS itself and the verification of signatures as parameters | Admission |
| `server/monitor/status_server.c`, `server/monitor/cstat.c`, `server/monitor/json_output.c`, `cstat.c` | the list of clients, reading of the disk, lines of the main process, requests; answers as the fields of the JSON text | Monitor |
| `handy.c` (`version_to_long`) | all | Version |
| `server/monitor/cache.c` | `cache_load`, `cache_lookup`, `cache_loaded`; `struct stat` is a mode and a list of numbers, memory does not run out | Cache |
| `server/monitor/browse.c` | `do_browse_manifest`, `browse_manifest_start`, `browse_manifest`; the manifest is its records | Cache |
| `client/extrameta.c` | `has_extrameta`, `get_extrameta`, `set_extrameta`; not Windows | ExtraMeta |
| `client/acl.c` | all on Linux; a list is its text, as `acl_to_text` gives it | ExtraMeta |
| `client/xattr.c` | all on Linux; for FreeBSD the reading and setting of one namespace | ExtraMeta |
| `server/autoupgrade.c` | `autoupgrade_server`; the files can be read | Autoupgrade |
| `server/extra_comms.c` | `do_autoupgrade` | Autoupgrade |
| `client/autoupgrade.c` | `autoupgrade_client`; the script itself is not modelled | Autoupgrade |
| `server/child.c` | `run_server_script`, `get_action_from_client`, `child` from the request on | Notify |
| `server/run_action.c` | `maybe_do_notification`, `buf_to_notify_str`, notifications in `run_action_server_do`; not those after a restore | Notify |
| `run_script.c` | the command line made by `run_script_to_buf` | Notify |
| `client/ca.c` | `ca_client_setup`, `rewrite_client_conf`; the key program and the transfer as parameters, not Windows | CaClient |
| `async.c` | `async_io` as to time-outs, `async_read_quick`; `asfd_set_timeout` (asfd.c); not Windows | Timeout |
| `asfd.c` | `check_ratelimit`, and `asfd_do_write(_ssl)` as to the rate; speeds as whole numbers | RateLimit |
| `asfd.c` | `asfd_do_read_ssl`, `asfd_do_write_ssl` with TLS records; OpenSSL by assumption, not renegotiation or close | Tls |
| `client/list.c` | all, with the text of the local time as a parameter | ListClient |
| `server/list.c` | the messages of `list_manifest` with their lengths (which backups are listed is in Request) | ListClient |
| `fsops.c` | `do_recursive_delete`, `recursive_delete`, the variants for directories, `do_rename`, `mkpath` with a limit | Remove |
| `server/delete.c` | `delete_backup`, `do_rename_w`, `recursive_delete_w` (which backup is chosen is in Retention) | Remove |
| `server/deleteme.c` | all | Remove |
| `rs_buf.c` | all but the checks that pointers are in their buffers | RsBuf |
| `client/backup_phase2.c` | `rs_loadsig_network_run`, `load_signature_and_send_delta` | RsBuf |
| `server/blocklen.c` | all, with an exact square root | RsBuf |
| `attribs.c` | `attribs_set`, `attribs_set_file_times` (not Windows, nor FreeBSD's flags) | RestoreAttr |
| `client/restore.c` | `restore_dir`, `restore_link`, `make_link`, `restore_special`, the order of calls in `open_for_restore` | RestoreAttr |
| `client/restore_switch.c` | all but the contents | RestoreAttr |
| `fzp.c` | `fzp_open`, `fzp_close`, `fzp_read`, `fzp_write`, `fzp_eof`, `gztruncate`, `fzp_read_ensure`, the buffer of `fzp_printf` | Fzp |
| `server/compress.c` | all | Fzp |
| `server/zlibio.c` | all | Fzp |
| `client/monitor/json_input.c` | `input_integer`, `input_string`, `input_map_key`, `input_start_map`, `input_end_map`, `input_start_array`, `input_end_array`, `merge_bu_lists`, `update_live_counter_flag`, `add_to_bu_list` | JsonInput |
| `server/monitor/json_output.c` | `json_send`, `json_send_client_start`, `json_send_backup`, `do_counters`, `do_children`, as calls of the generator | JsonInput |
| `yajl/yajl_gen.c`, `yajl/yajl_encode.c` | all but doubles, booleans and null | Yajl |
| `yajl/yajl_lex.c`, `yajl/yajl_parser.c` | `yajl_lex_lex`, `yajl_lex_string`, `yajl_lex_number`, `yajl_do_parse`, `yajl_do_finish`, `yajl_parse_integer`; not comments, UTF-8 validation, messages about errors | Yajl |
| `client/monitor/json_input.c` | `json_input` | Yajl |
| `asfd.c` | `parse_readbuf_line_buf`, `extract_buf`, `asfd_do_read` | Yajl |
| `log.c` | messages as JSON | Yajl |
| `client/find.c` | `find_files`, `found_directory`, `found_other`, `found_soft_link`, `process_entries_in_directory`, `fstype_matches`, `nobackup_directory`, `fs_change_is_allowed`, `my_send_file_w` | Phase1 |
| `client/backup_phase1.c` | all but what is for Windows | Phase1 |
| `server/backup_phase1.c` | `backup_phase1_server_all`; the quota is in Quota | Phase1 |
| `prog.c` | `parse_action`, `random_delay`, `run_test_confs`, `get_prog_lock`, `real_main` | CommandLine |
| `server/backup_phase2.c` | reading the list of the first phase | EndToEnd |
| `src/server/backup_phase2.c`, `src/client/backup_phase2.c`, `src/asfd.c`, `src/async.c` | `backup_phase2_server_all` (the loop), `do_stuff_to_send`, `do_backup_phase2_client`, `parse_rbuf`, `deal_with_data`, `asfd_write`, `asfd_append_all_to_write_buffer` | `Exchange` |
| `src/server/restore.c`, `src/server/restore_sbuf.c`, `src/handy.c`, `src/client/restore.c`, `src/asfd.c` | `restore_stream` (the loop), `restore_remaining_dirs`, `restore_end`, `restore_sbuf_all`, `restore_file`, `do_send_file`, `do_quick_read`, `do_restore_client` (the loop), `restore_interrupt`, `asfd_simple_loop`, `asfd_write` | `RestoreFlow` |
| `src/server/bedup.c`, `src/server/sdirs.c`, `src/server/backup.c`, `src/server/rubble.c`, `src/server/delete.c`, `src/server/backup_phase4.c` | `bedup` step by step beside the server: `iterate_over_clients`, `process_dir`, `get_link`, `check_files`, `full_match`, `do_hardlink`; the order of links and directories in `sdirs_create_real_working`, `do_backup_server`, `working_delete`, `delete_backup`, `backup_phase4_server` | `BedupConc` |
| `src/conffile.c` | `conf_load_lines_from_file` with its buffer, `conf_parse_line`, `deal_with_dot_inclusion` | `ConfFiles` |
| `src/conffile.c`, `src/handy.c` | `conf_finalise_global_only`, `general_conf_checks`, `server_conf_checks`, `client_conf_checks`, `get_cname_from_ssl_cert`, `get_fqdn`, `mangle_cname`, `strip_fqdn`, `strlwr` | `ConfCheck` |
| `src/server/backup_phase2.c`, `src/fsops.c` | `path_too_long`, `treedata`, `set_new_datapth`, `start_to_receive_new_file`, `init_max`, `init_fs_max`, `mkpath` below the data directory, `build_path` | `DataPath` |
| `src/server/bu_get.c`, `src/server/timestamp.c`, `src/fsops.c` | `get_link`, `have_backup_file_name`, `have_backup_file_name_w`, `maybe_add_ent`, `do_bu_get_list`, `bu_get_current`, `timestamp_read`, `do_readlink` with sizes of buffers | `BackupList` |
| `src/client/backup_phase1.c`, `src/client/backup_phase2.c`, `src/server/backup_phase2.c`, `src/server/backup_phase4.c`, `src/server/restore_sbuf.c`, `src/client/restore_switch.c`, `src/handy.c` | which form data are sent, stored, patched and read in: `to_server`, `deal_with_data`, `send_whole_file_w`, `inflate_or_link_oldfile`, `forward_patch_and_reverse_diff`, `do_send_file`, `do_restore_file_or_get_meta`, `dpth_is_compressed`; without Windows and hardlinked archives | `StoredForm` |
| `src/server/child.c`, `src/server/timer.c`, `src/server/backup.c` | `timed_operation`, `write_status`, `check_timer_script`, `run_timer`, `check_manual_file`, the timer in `run_backup` | `TimedOps` |
| `src/server/resume.c`, `src/server/backup_phase2.c`, `src/server/backup_phase1.c` | `read_phase1`, `add_to_cntr`, `forward_past_entry_counter`, the counting in `get_last_good_entry` and `forward_before_entry`, and the rows written to `counters_d` and `counters_n` | `ResumeCntr` |
| `src/server/resume.c`, `src/server/manio.c` | `do_resume`, `do_resume_work`, `get_last_good_entry`, `forward_past_entry`, `forward_before_entry`, `forward_past_entry_counter`, `set_higher_datapth`, `manio_tell`, `manio_seek`, `manio_close_and_truncate`, `manio_write_cntr`, on bytes | `ResumeFiles` |
| `src/server/main.c`, `src/async.c` | `run_server` (the loop), `server` (the loop), `process_incoming_client` (its outcomes), `setup_parent_child_pipes`, `extract_client_name`, `write_to_status_children`, `update_status_child_client_lists`, `maybe_update_status_child_client_lists`, `chld_check_for_exiting`, the signal handlers, `async_io` over many descriptors; not `fork = no` and socket activation | `MainLoop` |
| `src/run_script.c`, `src/forkchild.c`, `src/log.c` | `run_script_to_buf`, `run_script_select`, `log_script_output`, `run_script_sigchld_handler`, `forkchild` (its pipes), `logm`, `logw`; not failing `fork` and `dup2`, scripts that are not waited for, estimates | `RunScript` |
| `src/server/backup.c`, `src/server/backup_phase3.c`, `src/server/resume.c`, `src/fsops.c` | `do_backup_server` after the scan, the order of the operations of `backup_phase3_server_all`, `do_resume` without a scan, `recursive_delete` of a working directory file by file; what phase 2 receives is given, reads and writes do not fail | `Ending` |
| `src/server/bedup.c` | `run_bedup`, `process_from_conf`, `iterate_over_clients`, `process_from_command_line`, `in_group`, `get_link`; what `process_dir` does is in `Bedup` and `BedupConc`; not `getopt` and `atoi`, signals, memory that runs out | `BedupRun` |
| `src/handy.c` | `chuser_and_or_chgrp`, its call in `src/prog.c` and that in `src/server/child.c`; the system calls after their manual pages, with capabilities as none, reading everything, or all; not other namespaces or secure bits | `Privs` |
| `src/server/ca.c` | `ca_server_setup`, `ca_init`, `maybe_make_dhfile`, `maybe_make_crl`, `get_ca_dir`, `get_crl_path`, `get_generated_crl_path`, `symlink_file`, `remove_file`; not what burp_ca does inside, links on the way of a path, the messages | `CaServer` |
| `src/server/run_action.c`, `src/server/restore.c` | the order of the steps of `run_action_server_do`, `run_restore`, `do_restore_server` and `restore_manifest` for one backup, with the locks and `restore_list`, for any number of sessions; not the races of `lockf` with `unlink` (see C65), restores of all backups, sessions that only list | `Sessions` |
| `src/server/sdirs.c` | `sdirs_init`, `do_dirs`, `do_common_dirs`, `do_lock_dirs`, `sdirs_get_real_working_from_symlink`, `sdirs_get_real_manifest`, and the paths of `sdirs_create_real_working`; not allocation, links on the way of a path | `Sdirs` |
| `src/server/main.c` | `split_addr`, `init_listen_socket`, `init_listen_sockets`, `check_addr_for_desc`, `socket_activated_init_listen_sockets`, the start of `run_server`; not `getaddrinfo`, `socket`, `bind`, `listen` and systemd, which are given | `Listening` |
| `src/server/backup_phase4.c` | `atomic_data_jiggle`, `maybe_delete_files_from_manifest`, by the operation; not how the data of an entry is put together (`Jiggle`), entries that are partly written to the deletions file | `Deletions` |
| `src/cntr.c`, `src/server/monitor/json_output.c`, `src/asfd.c` | `cntr_stats_to_file`, `write_all`, `asfd_write` to a file; not how the text is made (`Cntr`) | `StatsFile` |
| `src/client/restore.c` | `get_restore_desired_dir`, `do_restore_client` without a restore directory; not on Windows | `RestoreTo` |
| `src/client/monitor.c` | `monitor_client_main_loop`, `copy_input_to_output`; not how a message of the server is put together from what is read (`Asfd`), network timeouts, errors of `select` | `Relay` |
| `src/log.c` | `logp` (JSON in `Yajl`), `logw`, `logm`, `log_recvd`, `log_fzp_set`; not `logc`, errors of OpenSSL, failures to write | `Logging` |
| `src/times.c`, `src/cntr.c` | `time_taken` for durations that are not negative, `bytes_to_human` up to the printing of the quotient | `Human` |
| `src/forkchild.c` | `forkchild`, `forkchild_fd`, `do_forkchild` up to `execv`, without failures of `dup2` and `fdopen` | `ForkChild` |
| `src/ssl.c` | `sanitise`, `setenv_x509`, `setenv_x509_date`, `setenv_x509_serialnumber` from what OpenSSL gives; the comparison of the common name in `ssl_check_cert` | `X509Env` |
| `src/fsops.c` | `files_equal`, for files that are not compressed | `FilesEqual` |
| `src/iobuf.c` | `is_printable`, `iobuf_to_printable` for messages that were received | `Printable` |
| `src/server/timestamp.c`, `src/server/timer.c` | `timestamp_get_new`, `timestamp_to_long` and the comparison in `check_interval`, with dates as seconds of the calendar instead of text | `Stamps` |
| `src/server/link.c` | `recursive_hardlink` into a new directory, `do_link` without overwriting, `duplicate_file` | `HardCopy` |
| `src/client/acl.c` | `acl_is_trivial`, `default_acl_contains_something`, `acl_contains_something`, `has_acl` on Linux | `Acl` |

## What is not modelled

* Windows code (`#ifdef HAVE_WIN32`), the drawing of the ncurses monitor,
  the checksum of the server's certificate, the init and signal code, `libchecksum`, the xattr and ACL libraries themselves.
* Locale: `alphasort` is taken as byte order, `strftime` as English names.
* Partial writes to the deletions file; a full disc during phase 4 (Links).
* Warnings printed about unsorted restore lists; messages a client sends
  during a restore; notifications after a restore; overflow of `atoi` in the status line.
* Caches: `find_logic` and bedup keep computed values. The model computes them anew.
* Bedup: other programs that change the storage meanwhile.
* Confine: the failure of `lchown` for want of privilege, continuing after a fatal error, other processes.
* Symbolic links within an include path.

## Hypotheses about other libraries

They are fields of a structure or explicit hypotheses, never axioms.

* librsync: patching the basis of a signature with the delta made from it gives back the new file. The
  stronger assumption that a damaged basis is noticed is not made.
* zlib: inflating what was deflated gives the same bytes, whatever the pieces; an incomplete stream has no end.
* Cipher: decrypting what was encrypted with the same password and salt gives the same bytes.
* md5: a function of the bytes. Where a claim says that corruption is found, the hypothesis is that
  the two digests differ.
* crypt: a function of password and salt that may fail.
* Regular expressions: a parameter, a predicate on paths.
* POSIX: `rename`, `link`, `unlink`, `mkdir` and `symlink` are atomic. Record locks belong to processes and
  are dropped when any descriptor of the file is closed.
* POSIX, for programs that are run: a new descriptor is the lowest that is free. `mktime` gives a moment at which
  clocks show the time asked for, if there is one.
* OpenSSL, for what scripts are told: the fields of a name in a certificate, and dates and serial numbers as text, are
  inputs.

## Findings

Each of these theorems proves, with a witness, that the code does not do what the property asks for.

<!-- findings -->
| theorem | what it shows |
|---------|---------------|
| `C05_entry_order_violated` | C05 (violated): for a path with both a metadata record and a VSS footer each sorts after the other, so the order of entries is not antisymmetric. |
| `C10_cut_reported_violated` | C10 (violated, reporting): a manifest that was cut in the middle of an entry is read as a complete manifest without that entry: no error is reported. Here the last 9 bytes of a file entry are missing (its whole end record), and then all but the lead of it. |
| `C12_buffer_terminated_violated` | C12 (a gap): `sscanf` is called on the read buffer although nothing terminates it. A peer can fill the buffer completely with bytes of which none is NUL; then `sscanf`, which needs a NUL terminated string, runs on a buffer without one. |
| `C13_empty_message_violated` | C13 (violated for `asfd->write`): a message with an empty payload is reported as sent but is dropped. |
| `C16_relink_salt_violated` | An encrypted file `/a` with a second link `/b`; then `/a` is deleted. `/b` is now a file, its data is that of `/a`, but the salt that `/a` was encrypted with is lost, and it cannot be restored. (The salt is made for each file as its data is sent, `src/client/backup_phase2.c:227-232`, so it is in no entry without data.) |
| `C16_relink_compression_violated` | Likewise if the compression of the two paths differs, as when files with one extension are excluded from compression: the entry says that data stored without compression is compressed. |
| `C17_equal_paths_violated` | With a path in both lists the changed entry comes first and the unchanged one stays too. |
| `C19_exhausted_violated` | When all paths are used, the failure of `dpth_incr` is not noticed, and the first paths are handed out a second time within the same backup. |
| `C19_deleted_reused_violated` | A storage path is used again when the file that had it is gone from the client: the next backup but one starts from a directory without it, while the backup that has it is still there. |
| `C20_half_received_violated` | What is missing: a file that was being received when the backup was interrupted is not recorded. Its path is handed out again, and if the next use of it is for a hard link that has become a file, whose content phase 2 puts in `relink`, then phase 4 takes the half received file instead. |
| `C22_k1_most_recent_kept_violated` | C22 (violated): ages count backup numbers, not backups. After a manual deletion leaves a gap, the policy deletes one of the `k1` most recent backups: here there are only three backups and the configuration is to keep three, and the oldest goes all the same. |
| `C27_mixed_compression_violated` | A first run is cut after the new version of an uncompressed file has been put in place and before `deltas.forward/inflate` is removed. That is a hard link to the old version. The next run skips this file and writes the old version of another, compressed, file into `inflate`, and so into the old version of the first one: the previous backup of the first file now has the content of the second, both in the duplicate and in the original. |
| `C27_mixed_compression_archive_violated` | The same with a hardlinked archive, which must never be changed. |
| `C27_copy_interrupted_violated` | An unchanged file has as many links as allowed, and is copied instead, directly to its final name. If the copy is interrupted the next run takes the incomplete file to be finished. |
| `C27_link_limit_violated` | An uncompressed file is one link below the limit. An interruption leaves the link `inflate` to it, and so the next run finds the limit reached and copies the file to `inflate`: opening the destination for writing empties the source. Both the previous backup and the new one are lost. |
| `C28_only_backup_deleted_violated` | C28 does not hold for a deletion of the only backup that is cut off when the directory has been moved away: `current` then points to nothing, which nothing notices, and the next backup can never be finished. Its data has been received, but every attempt to go on fails, and so does everything else. |
| `C28_delete_beside_interrupted_violated` | C28 does not hold for a deletion of the current backup that is cut off while an interrupted backup waits to be resumed, since the leftover of the deletion is not looked at then: `current` points to nothing although there is a complete backup, and nothing can be done any more. |
| `C29_settings_violated` | C29 does not hold for settings that have become empty, or that are cut off at a multiple of 4096 bytes: the interrupted backup is resumed although its settings were others. |
| `C30_lost_unchanged_violated` | C30 fails when the server is killed or the power is cut at the wrong time. The two lists are separate files, each with its own buffer, and are not flushed together (`src/server/manio.c`, `src/fzp.c`), so what has been written to one of them can be lost although a later entry of the other is on the disc. Resuming takes its position from the list of changed entries alone. Here `/d` and `/d/a` have been looked at and belong in the list of unchanged entries, `/d/c` has been received; the list of unchanged entries is lost, and the resumed backup has neither `/d` nor `/d/a`, although each list is a beginning of what it should be. |
| `C32_junk_violated` | C32, violated: a request that is not a number, or is zero, gets the most recent backup, not an error. |
| `C32_other_time_violated` | C32, violated: of a time stamp that no backup has, the number at its beginning is enough. A date alone is taken for the number of the year. |
| `C32_failure_lost_violated` | C32, violated: that the restore of the backup failed does not show in the result. |
| `C33_error_violated` | C33, violated: when the restore list cannot be read to its end, everything after that is restored. |
| `C33_server_violated` | C33, violated: a directory whose name begins with that of one that was asked for is restored too. |
| `C36_crypt_failure_violated` | C36 fails when the hash function does: `check_passwd` returns -1 for an error, which the caller takes for a match. So with a `passwd` that the system cannot hash (an unknown method, or a build without `crypt`), every password is accepted. |
| `C39_chain_violated` | C39 fails for sequences: the check uses the name that is being acted under, and a client may ask repeatedly. Here `c` does not list `a`; a request of `a` to act for `c` is refused, but `a` first becomes `b` and then `c`, and may then restore the files of `c`. |
| `C40_empty_name_violated` | C40 fails for the empty name: the check reads the byte before the string. A client gets there by sending an empty name, or, unless `cname_fqdn` is set, any name that begins with a dot. |
| `C41_no_directory_violated` | C41: not so for a file that none of the directories contains: that is decided by the last directory of the list, which has nothing to do with it. |
| `C43_text_violated` | C43. For other paths, such as those from Windows, a slash is shown that is not there; and the two different paths below are shown alike. |
| `C44_doubled_slash_violated` | C44. The condition on paths is needed: a doubled slash, as `C59` shows seeding to the root directory to leave, makes a child without a name. |
| `C45_read_error_violated` | **C45** does not hold when files cannot be read to their ends: a read error is taken for the end of the file, so files whose beginnings are the same, up to the error, are taken for the same, and one of them is lost. |
| `C47_file_changed_violated` | **C47 fails on the client.** A changed file is counted twice in the grand total of the client: once as changed and once as new, though no file is new. |
| `C47_deleted_row_violated` | **C47 fails for the table.** A kind of which entries were only deleted has no row in the printed table, so the column of deletions does not add up. |
| `C48_truncated_violated` | C48 fails for a file that ends within a header: there is no output and no error, wherever the cut is. |
| `C48_cut_at_header_violated` | C48 fails on the client when a piece ends exactly behind the header of a data stream: nothing is left to be written, and writing nothing is taken for an error. The restore of the file fails. |
| `C48_write_error_violated` | C48 fails on the client when the disc is full: the error is not noticed. |
| `C49_dotdot_violated` | A directory entry with the path `..` changes owner and mode of the directory above the restore directory. |
| `C49_chmod_violated` | A symbolic link that is said to have the mode of a file: the mode is set on what the link points to. |
| `C49_acl_violated` | An access control list is set on what a link points to. |
| `C49_hard_link_violated` | The target of a hard link is not checked: a file from outside gets a name in the restore directory, and its owner is changed. |
| `C49_in_place_violated` | After that an entry with data that is said to be a directory is written into the file from outside, even if overwriting is not allowed. |
| `C49_metadata_violated` | The metadata of a directory: after `mkpath` has failed on `..` in the first attempt, it succeeds in the second, and makes directories anywhere. |
| `C49_socket_violated` | The path of a socket is cut after 107 bytes. If the name of the restore directory is that long, the socket is made next to the restore directory, or further up. |
| `C50_same_datapth_violated` | C50 fails if two files of a backup have the same data path: an interrupt that comes late stops the second file, and the client takes what it got for the whole of it. |
| `C50_read_error_violated` | C50 fails when the server cannot read a stored file to its end: the client that is skipping the file gets a warning, which it does not expect, and gives up the whole restore; or there is no end marker at all and it takes the next entry for something unexpected. |
| `C50_backup_read_error_violated` | C50 fails for a file that is neither compressed nor encrypted and that the client cannot read to its end: the end marker is sent before the interrupt, and the server saves what it got as if it were the file, with a matching length and digest. |
| `C50_delta_read_error_violated` | C50 fails when the client cannot read a file to its end while it is making a delta: it has read the signature already, and forgetting the file reads another. It takes the next request for that and gives up; or, if another signature comes next, it loses that one. |
| `C51_misplaced_violated` | C51 does not hold for groups elsewhere: every expression with one in the middle, or that is nothing but a group, makes the program use memory it has freed. |
| `C51_single_violated` | C51 does not hold for a single test: it is ignored, whatever it says. |
| `C51_manual_violated` | The expression in the manual, `burp.8`, is one of those that go wrong. |
| `C51_short_group_violated` | C51 does not hold for a short group in a group: the wrong parenthesis is taken for its end. Here, too, freed memory is used. |
| `C51_double_not_violated` | C51 does not hold for two negations of a test: the expression is ignored. |
| `C52_outside_violated` | The code looks outside of the line in two cases: when there is nothing but colons and white space before the equals sign, and when the text after an opening quote ends with a backslash. |
| `C53_separators_violated` | C53, where it is not kept to the letter: a directory that ends with a separator gets a second one, and a name that is only a separator loses it. By `C53_components` both still name the right place. |
| `C54_race_violated` | **C54** does not hold in general: a process that has opened the lock file before it was removed by the one that releases the lock gets a lock on a file that no other will ever see, so the next process, for which there is a new file, proceeds as well. |
| `C54_test_refuses_violated` | **C54**: testing a lock can refuse it to a process although nobody proceeds. |
| `C55_refused_delete_recovers_violated` | **C55**: a request to delete that is going to be refused still has the recovery done, which may complete or remove an interrupted backup. |
| `C56_ten_million_violated` | With ten million backups the names are no longer in the order of the numbers, and the number of the last backup is given again. |
| `C57_truncated_violated` | C57 fails for a stored file that has become shorter: neither the length nor the digest that the end marker gives is compared by the receiver, and the end of the compressed data need not have been reached. |
| `C57_short_write_violated` | C57 fails when the file system takes only some of the bytes (the last of them before it is full): `write` returning less than it was given is taken for success. |
| `C57_receive_a_file_violated` | C57 fails for certificates and configuration files: the result of the transfer is thrown away, so a connection that is lost in the middle counts as success. |
| `C57_read_error_violated` | C57 fails for a file that cannot be read to its end and is sent as it is: an end marker that fits the part that was read is sent all the same. |
| `C58_length_violated` | C58 fails for the length: it is not compared with the recorded one. |
| `C58_counted_violated` | C58 fails for the counters: an entry that does not pass is counted just as one that does. |
| `C58_crash_violated` | C58 fails for an entry without an end marker (from a damaged manifest): the server crashes. |
| `C59_hardlink_violated` | C59, violated: the target of a hard link is another file of the backup, and it is not moved, so what is in the manifest is a link to a path that is not there. |
| `C59_outside_violated` | C59, violated: the server does not look whether a path is in the source directory. A path beside it is cut as if it were (only the client's own check of its starting directories is in the way), and a shorter one is read beyond its end. |
| `C60_overflow_violated` | C60 does not hold for sizes from 2^64 on: these 2^34 gigabytes come out as 0, which is no limit at all. |
| `C60_logic_violated` | An unknown suffix of a size is ignored in a test, where C60 asks for an error. |
| `C62_nested_violated` | C62 does not hold without that condition: here `/a` is excluded and `/a/b` and `/a/b/c` are included, and `/a/b/c` is visited twice. |
| `C64_header_violated` | C64, violated: of a file with a Windows header, only the header is sent for the hard link. |
| `C65_daemon_violated` | **C65** does not hold: a server that goes into the background does so in a child, which does not have the lock of its parent; another server then gets the lock. |
| `C66_tab_violated` | **C66 fails for paths with tabs.** The rest of such a path is read as a counter: a file called `a<tab>w9` makes the monitor show nine warnings. |
| `C67_first_violated` | So stripping one component from an absolute path, as all paths in a backup of a Unix client are, does not change where the entry goes. |
| `C68_fifo_violated` | The data of a fifo (from a client with `read_fifo` or `read_all_fifos`): whatever is at the path is replaced, although overwriting is not allowed. |
| `C68_link_violated` | An entry for a link with the mode of a directory replaces what is there. |
| `C70_subject_violated` | C70 fails for what is in the certificate: the name in a signing request is not compared with the name of the client that sends it. `laptop`, with its own password, gets a certificate in the name of `desktop`, and is then served as `desktop`, which is configured to be known by its certificate alone. In the same way any client can get a certificate in the name of the server. |
| `C70_nul_violated` | C70 fails for names with a NUL byte in them: a certificate in the name `laptop<NUL>.example.org` is taken for that of `laptop`. |
| `C70_race_violated` | C70 fails for connections at the same time: two connections of the same client find that there is no certificate; one of them gets its certificate; the other then sends no request, and removes the files of the first. The CA has forgotten about the certificate, and will sign another one in this name. |
| `C71_hundred_violated` | C71 fails if a number reaches 100: 1.2.100 is taken for 1.3.0, and 1.2.101 for a later version than 1.3.0. |
| `C71_text_violated` | C71 fails for text that is not a version: letters count as zero, and what follows the third number does not matter. |
| `C72_reload_violated` | C72 fails after `SIGHUP`: the children that still run are not counted any more. With one child allowed, two run. |
| `C72_parallel_violated` | C72 fails for backups that start at about the same time: each child goes by what the server knew when it was forked. With one backup allowed, two run. |
| `C73_notify_violated` | C73 fails: if the server's own file has `server_script_notify`, a client cannot turn notifications off. |
| `C73_twice_violated` | C73 fails for lists given on the command line of the server without `:=`: a client gets them twice. With `-o keep=7` it has `keep=7` and `keep=7`, so backups are kept that are up to 49 backups old. |
| `C73_reset_violated` | C73 fails: `:=` in the file of a client does not remove the clients that may restore for it according to the server's own file. |
| `C73_yes_violated` | C73 fails: text that is no number counts as 0. `password_check = yes` turns the check of passwords off. |
| `C73_unknown_violated` | C73 fails: names of settings that do not exist are accepted and have no effect. |
| `C74_script_violated` | C74 fails: a client that only lets the server set what is included and excluded can be told any setting. With `backup_script_pre` the server can run a program of its choice on the client. |
| `C74_rights_violated` | C74 fails: a server that may set what is included can also give itself the right to ask for restores, and choose where they go to. |
| `C75_own_excludes_violated` | C75 fails for what is left out of a backup: the list by which paths are included and excluded is not emptied before the server's settings are added to it. What the client's own file excluded stays excluded. |
| `C75_include_excluded_violated` | C75 fails: if the server includes what the client's own file excludes, the client stops with an error. |
| `C75_spaces_violated` | C75 fails: a value that needs quotes arrives without its white space. |
| `C75_quotes_violated` | C75 fails: a value that begins and ends with a quote arrives without the quotes. A regular expression becomes another one. |
| `C76_refused_violated` | C76 fails: the server answers that all is well and then gives up, if only one end of a seed is set in its own settings. |
| `C77_stamp_violated` | C77 fails: a backup can be named by its time stamp, but there are colons in it, and the server cuts the request at the first colon. The rest becomes the regular expression, so that only files whose names have `00:00:` in them are restored, which is usually none. The same for listing, verifying and comparing. |
| `C77_long_violated` | C77 fails: a request has 511 bytes at most, and the end of a long regular expression is cut off without a word. It then matches more than was asked for. |
| `C77_junk_violated` | C77 fails: something that is not a backup restores the most recent backup, but lists nothing. |
| `C78_setup_violated` | C78 fails: if memory or the like runs out while the connection is set up, the client ends with exit code 0 although it has done nothing, and no other server is tried. |
| `C78_resume_violated` | C78 fails: a server that answers `resume` without a level of compression makes the client read memory after the end of the answer. |
| `C78_again_violated` | C78 fails: a backup that was made is made again with another server if only the script after it fails. |
| `C78_unrun_violated` | C78 fails: the script after is not run, although it is wanted when a backup fails, if the backup fails because nothing is included or because the server refuses it. |
| `C78_args_violated` | C78 fails: of the arguments of a script, those after the first 63 are left out. |
| `C79_named_violated` | C79 fails: a monitor that asks for a client by its name is told, although it may not watch that client, that the client exists, its labels, whether it runs and the processes, the phase and the counters of its children: only the list of backups is emptied. |
| `C79_colon_violated` | C79 fails: a client with a colon in its name, which is a valid name, is in the overview, but it cannot be asked for. |
| `C79_crash_violated` | C79 fails: for a peer of version 2.1.8 or earlier, a null pointer is followed when a client has a backup that is being made, or was left behind, while no child has sent counters. |
| `C79_global_violated` | C79 fails: when the main configuration file changes, the files of clients are read again, but with the main settings as they were when the monitor connected: a `restore_clients` added there does not count. |
| `C79_included_violated` | C79 fails: when a file changes that a client's file includes, the time of the client's file does not change, and the change is not noticed: a monitor that may no longer watch a client still sees its backups. |
| `C79_regranted_violated` | C79 fails: asking for a client that may not be watched throws its list of backups away, and when the client may be watched again the list is not read, because the time of the directory is still that of the last reading: the overview shows no backup. |
| `C80_absent_violated` | C80 fails: a directory that is not in the backup is not shown as empty, nor is it an error. The names that are not there are passed over: whoever asks for `/gone/etc`, or `/etc/gone`, is shown what is in `/etc`. (cache.c:219-229) |
| `C80_mode_violated` | C80 fails: `sb->statp.st_mode&=S_IFDIR` is meant to set the directory flag, and clears everything else instead. Of a backup of the file `/home/me/notes` alone, the directories `/home` and `/home/me` are shown with mode 0, which is not a directory, so that they cannot be opened in a browser; and so is the file itself. (cache.c:153-163) |
| `C80_included_violated` | C80 fails: a directory whose parents are not in the backup, which is what `include=/home/me` gives, is shown without its permissions, although they are in the manifest. |
| `C80_stale_violated` | C80 fails: what is remembered is found by the name of the client and the number of the backup, and is never looked at again. When a backup is deleted and another one gets its number, which is what happens when the last backup is deleted, the files of the deleted backup go on being shown as those of the new one. (cache.c:176-183) |
| `C80_root_violated` | C80 fails: `/` is shown with what is said about the first record, whatever that is. |
| `C81_settings_violated` | C81 fails: with `acl=0` and `xattr=1` the access control list is saved and restored nevertheless, and with `acl=1` and `xattr=0` so are the extended attributes. The settings only decide whether a file is asked at all (`src/client/extrameta.c:12-37`); what is then written does not depend on them (`src/client/extrameta.c:39-73`). |
| `C81_stop_violated` | C81 fails: an extended attribute that cannot be set, such as a label of SELinux without the right to do so, stops those after it from being set, although they could be (`src/client/xattr.c:552-557`). |
| `C81_inherit_violated` | C81 fails: a file without a control list gets one when it is restored. The metadata of a directory comes before the files in it (`src/server/restore.c:358-385`), so its default control list is in force when they are made, and nothing is sent for a file that had none (`src/client/backup_phase2.c:290-321`). |
| `C81_dir_stale_violated` | C81 fails: a directory that is there already keeps attributes that the one in the backup did not have; also a control list, if the one in the backup had none. Things are set, and never taken away (`src/client/extrameta.c:75-180`). |
| `C81_bsd_violated` | C81 fails: on FreeBSD the value of an extended attribute is cut off at the length of the list of names, and no error is counted. The length of the value is asked for with the wrong function (`src/client/xattr.c:213-228`). |
| `C82_cut_violated` | C82 fails: when the connection breaks while the script is sent, the client runs the part that has arrived, and its exit code is that of a success. `receive_a_file` throws the result of the transfer away (`src/handy.c:532-539`), for the script and then for the package. |
| `C82_parent_violated` | C82 fails: a client that says that its system is `..` is sent files from above the directory: only separators are replaced (`src/server/extra_comms.c:167-170`). |
| `C82_session_violated` | C82 fails: when the script or the package is not a regular file, the client is told that there is no upgrade and goes on, but the server ends the session, so that the client can do nothing at all until it is upgraded (`src/server/autoupgrade.c:72-83`). |
| `C82_directory_violated` | C82 fails: the directory of the client is not made, only those above it, so that without it the client ends with an error each time, and never comes to do what it was asked to do (`src/client/autoupgrade.c:68-74`). |
| `C82_exit_violated` | C82 fails: a client that was upgraded instead of doing what it was asked to do reports success (`src/client/autoupgrade.c:124-133`). |
| `C82_empty_violated` | C82 fails: there is no answer for an empty name, while the client waits for one (`src/server/extra_comms.c:164-175`). |
| `C83_check_violated` | C83 fails: a client that only asks whether it is time for a backup has the script for successes run, with the log of the last backup, each time the answer is yes, though no backup is made (`src/server/run_action.c:585-588`, `src/server/backup.c:338-344`). |
| `C83_refused_violated` | C83 fails: when a backup is refused because the client may not force one, or because another client asks for it, the script for successes is run as for a backup (`src/server/backup.c:310-315,346-352`, `src/server/run_action.c:585-588`). |
| `C83_turned_away_violated` | C83 fails: with as many backups as are allowed already running, a backup is turned away, and the script to be run last is told that it succeeded and that the timer conditions were met (`src/server/run_action.c:564-569`, `src/server/child.c:318-326`). |
| `C83_failovers_violated` | C83 fails: the setting to be notified of a failure while there are other servers to try works the other way round. With it on, which is the default, a failed backup is not notified; with it off it is (`src/server/run_action.c:574-579`, `src/server/child.c:180-185`). |
| `C83_delete_violated` | C83 fails: when something is wrong with the lock as a backup is to be deleted, the notification calls it `unknown` (`src/server/run_action.c:414-424`). |
| `C83_finalised_violated` | C83 fails: a backup that was interrupted after the transfer is completed when the client next connects, and then nobody is notified, though the settings ask for it; the script to be run last is told of a failure (`src/server/run_action.c:543-547`). |
| `C83_args_violated` | C83 fails: of many arguments for a script those beyond the sixty-third are dropped without a word (`src/run_script.c:138-139`). |
| `C84_prefix_violated` | C84 fails: the new name of the server is compared with the beginning of the old one only. A client that has the name `burpserver2` and is told `burpserver` gets its certificate, but keeps the wrong name in its configuration file, so that from the next time on it takes the server for another one (`src/client/ca.c:249`). |
| `C84_missing_violated` | C84 fails: without a line for the name of the server in the configuration file, none is added, and the next time the client falls back on the address that it connects to (`src/client/ca.c:92-120`, `src/conffile.c:709-724`). |
| `C84_inject_violated` | C84 fails: the name that the server gives is written as it is. At that time the client has no way yet to know the server. A name with line breaks in it puts any other settings into the configuration file, such as a script to be run (`src/client/ca.c:118`). |
| `C84_removed_violated` | C84 fails: after an error the certificates are removed also if they were there before, such as that of an authority that other programs use; only the key is known to be new (`src/client/ca.c:256-267`). |
| `C84_interrupted_violated` | C84 fails: a client that is killed after the key was made, and before the certificates have come, has a key but no certificate. From then on it does not ask again (`src/client/ca.c:199-211`). |
| `C85_pause_violated` | C85 fails: the manual says that burp gives up if nothing is sent or received over a period of the length of `network_timeout`, but the seconds are counted by calls, and a pause between two calls counts as one second, however long it is. After a pause (a computer that was suspended, a server that was busy for hours) a connection that has been silent for any length of time is waited for all over again. |
| `C86_first_second_violated` | C86 fails: in the first second there is no limit at all. For every limit, and any number of bytes, that many bytes are sent in one second. |
| `C86_made_up_violated` | C86 fails: the limit is one on the average since the beginning. After `d` seconds during which nothing was sent (the other side was busy), what was not sent is made up for, and as much is sent in one second as the limit allows for `d` seconds. The limit is `n` thousand bytes a second. |
| `C86_clock_violated` | C86 fails: if the clock is set back, to any time before the first attempt, there is no limit until it gets back to where it was. It is not the beginning that is set again, but the time of the call, which is read again each time. |
| `C86_negative_violated` | C86 fails: "ratelimit should be greater than zero", says the program, but it accepts every setting other than zero, and with one below zero nothing at all is sent after the first second, for ever. (Each attempt counts as activity of the connection, so that it is not given up, either.) |
| `C88_cut_violated` | C88 fails: a listing that was cut off, because the connection was lost or because the server could not read its manifest, ends with "List finished ok" and success like a whole one. |
| `C88_memory_violated` | C88 fails: when a directory is listed, the server sends as many bytes for a name as the whole path is long, from a shorter piece of memory, so that what happens to lie behind it goes to the client. |
| `C88_parseable_violated` | C88 fails: for the same reason a parseable listing of a directory cannot be read back. |
| `C88_arrow_violated` | C88 fails: a long listing shows a directory as a link, if the first entry in it is one. |
| `C88_empty_violated` | C88 fails: the first path of a long listing being empty, the client writes to a buffer that is not there. |
| `C88_lines_violated` | C88 fails: a file with a line break in its name looks like two files, except in a parseable listing. |
| `C89_unseen_violated` | C89 fails: when the call that looks whether a directory is there fails for any reason (an error in reading from the disk, a path that is too long), the deletion is reported as done, and everything is still there. |
| `C89_link_violated` | C89 fails: when the first look at a symbolic link fails and the second does not, the link is taken for a directory: everything in the directory it leads to is deleted. |
| `C89_stops_violated` | C89 fails: when one file cannot be deleted, the deletion goes on only in its own directory: the directories and files that come after that directory are kept, though nothing stands in their way. |
| `C89_long_name_violated` | C89 fails: the name under which a backup is put aside is cut off. With a client name that is long enough, two backups get the same name, and the second cannot be deleted while the first is there. |
| `C90_overflow_violated` | C90 fails: the bytes of a message of a signature are copied into a buffer of 16000 bytes whatever their number, `memcpy` in `rs_infilebuf_fill`, src/rs_buf.c:157, and the network layer passes on messages of up to 32026 bytes: a server can make a client write past the end of the buffer. |
| `C91_not_root_violated` | C91 fails: for somebody who is not root and restores the files of somebody else, `lchown` is refused (src/attribs.c:319), and then neither the mode nor the times of a file are set, although these calls would be allowed: it is left with the mode 0600 and the time of the restore; from the second file on there is not even a warning (src/attribs.c:335-337). |
| `C91_special_violated` | C91 fails: if there is another file where a fifo or a device is restored, it is taken for what is to be restored (src/client/restore.c:282, 313): it stays a plain file, gets the owner and the mode of the device and is counted as restored. Only sockets are checked. |
| `C91_directory_first_violated` | C91 fails: a directory that is sent before what is in it gets the time of the restore; the server sends directories last because of that (C31). |
| `C92_compress_violated` | C92 fails: when reading a file fails, `bcompress` takes that for its end (src/server/compress.c:30), so what had been read before is compressed, success is reported and the file is removed: the rest of it is lost. |
| `C92_inflate_violated` | C92 fails: when reading a compressed file fails, for example because it is damaged, `zlib_inflate` takes -1 for the number of bytes to be written, since its count has no sign (src/server/zlibio.c:12, 31): it writes what is behind its buffer. The check after the loop (src/server/zlibio.c:40) is never reached for that. |
| `C92_cut_short_violated` | C92 fails: a compressed file whose end is missing, as after a crash, is taken for a whole one: `gzread` gives what there is, then 0, and `gzeof` holds (src/server/zlibio.c:31-46). The previous version of a file that was patched from it is then wrong, and nothing says so. |
| `C92_read_hangs_violated` | C92 fails: where `fread` fails, `fzp_read_ensure` tries again for ever, since it is not the end of the file (src/fzp.c:513). |
| `C93_backups_violated` | C93 fails: the backup at work, the latest one of those that are shown, goes away, because it has failed and has been deleted, and the rest stays. The first entry is taken off the list, and the search ends there. The others of the new list are then taken to be new, and are put in before those that are already there: each backup that is left is shown twice, once as it is and once as it was. |
| `C93_back_violated` | C93 fails: two backups have been made since the last answer. The second one is put between two others, and the pointer back of the one after it still leads past it: going up the list from 5, one comes to 7, and not to 6. |
| `C93_deleted_violated` | C93 fails: a client that the server no longer tells about stays in the list. |
| `C93_key_violated` | C93 fails: a key of 32 bytes or more, from the other side, runs over the end of the array it is copied to. |
| `C93_order_violated` | C93 fails: counters, or the end of the backups, before any name: a null pointer is followed. |
| `C93_answers_violated` | C93 fails: the marks around answers, which a client can ask for, and the listing of a directory are not known to the client; it gives up. |
| `C94_defined_violated` | C94 fails: a number with nineteen digits can make the parser of the client overflow a signed number. It looks for the greatest number that it may multiply by ten, and takes one that is too great by seven. |
| `C94_least_violated` | C94 fails: the least number can be written, but not be read. |
| `C94_lines_violated` | C94 fails: an answer with a line of more than 32030 bytes, as it is when it is not pretty, cannot be read by the client, however it arrives. |
| `C94_message_violated` | C94 fails: a message of a monitor with a backslash in it is not JSON, and the client that reads it gives up. |
| `C95_vanished_violated` | C95 fails: a file that has gone when it is looked at, after its name was read from the directory, is listed as a hard link to the file before it, if that has several names. What `lstat` said of the file before is still there, and is looked at. There is no warning, and a restore makes a link that never was. |
| `C95_lost_violated` | C95 fails: a file is listed as a hard link to one that is not in the list, so that its data are not in the backup: with `include_ext`, when there is a name of the same file that is not included, and after that the name of a file that has gone. The latter is remembered as a name of the former. |
| `C95_twice_violated` | C95 fails: a directory on a file system of a type that is not wanted is listed twice. |
| `C95_unopened_violated` | C95 fails: with `include_ext`, a directory that cannot be opened is left out without a word, even if every problem is to raise an error: the warning goes the same way as an entry would, and a directory does not have the right ending. |
| `C96_action_violated` | C96 fails: an action need not be one of those that there are. Only the first letter is looked at, except for `delete`: `-a browse` makes a backup, and `-a remove` restores, over files that are there if `-f` is given. |
| `C96_help_violated` | C96 fails: the help has options "to use with '-a c'", but that action is answered with the help. |
| `C96_test_violated` | C96 fails: the test of the settings for one client always reports failure, also when they are good: `burp -t -C client`. |
| `C96_delay_violated` | C96 fails: `-q 0` does not take the delay away that is in the configuration. |
| `C98_stall_violated` | C98 fails: the two sides can come to wait for each other, whatever the network holds. The client is sending a large file and reads nothing meanwhile. The server goes on to send requests and signatures until the network and its buffer are full. When the last of them has just fitted into the buffer, it writes the end of the requests with `asfd->write_str`, which does not read until there is room for it, and there is none, because the client does not read until the server does. |
| `C99_stall_violated` | C99 fails: a restore may come to a point where nothing more happens although it has not ended, both sides being in the middle of writing: if what the client has to say about the first entries is more than what its buffer and the way to the server hold, and what follows is more than what the server's buffer and the way to the client hold. The server reads what the client says between two entries and after each piece of a file, but it need not be there yet at that time. |
| `C100_finished_backup_violated` | C100 fails: a backup begins while `bedup` is at the files of the client. `bedup` does not know of it, comes to a file of the new backup of which a part has been received, and then to a file of a finished backup with the same data. It puts a link to the new file in the place of the old one. The server goes on to write to the new file: the finished backup has data now that the file never had. |
| `C100_new_backup_violated` | C100 fails: and if `bedup` comes to the file of the finished backup first, it puts a link to that in the place of the new file, which the server goes on to write to without its having a name any more: the new backup has only the part of the file that had been received by then. |
| `C101_long_violated` | C101 fails: a line of 4095 bytes or more is read as several lines. A comment can set the name of the server. |
| `C101_root_violated` | C101 fails: a file in the root directory that includes another one by a relative name does not include the one beside it, but one in the directory that the program was started in. |
| `C101_name_violated` | C101 fails: a program that is told to use a file in the directory that it was started in, by the name of that file alone, does not find those that the file includes by relative names. |
| `C102_peer_violated` | C102 fails: the name that a client expects in the certificate of its server should be that of the server if none is given. For a server that is given by an address of IPv6 it is what comes before the first colon, here nothing. |
| `C102_client_file_violated` | C102 fails: the settings of a client on the server are not checked. Its own file can have a method of recovery that is not known, and a relative path for backups that are to be deleted, which the server would not start with. |
| `C103_long_path_violated` | C103 fails: the limit for a path is taken to be that of the operating system plus that of a name. A file whose path has 4080 characters, which a client can open, is not found to be too long, so that it is to be put into the tree; there it cannot be made, and the backup ends with an error, every time. |
| `C103_short_names_violated` | C103 fails: the limit for a name is never taken to be less than 255. Where the server keeps its backups on a file system that allows less, such as 143 for one that encrypts names, a file with a longer name is not kept out of the tree; it cannot be made there, and the backup ends with an error. |
| `C104_long_names_violated` | C104 fails: with a `timestamp_format` that makes more than 29 characters, the names that `working` and `current` point to do not fit the buffers of 38. The backup that is being made is then in the list of complete backups, for restores, deletions and the numbers of kept backups, and no backup is the current one. |
| `C104_long_path_violated` | C104 fails: whether a backup has a manifest is asked with a path that is cut off at 255 characters, so that for a client with a long path every backup is told to be without. |
| `C105_hard_link_violated` | C105 fails: when a file is deleted and a hard link to it stays, the stored data are used for the link, but the manifest says of them what it said of the hard link: that they are compressed, if it is configured. If the file was not compressed because of `exclude_comp`, the restore of it fails. |
| `C105_uncompressed_violated` | C105 fails: if, in the same way, the file that was not compressed is a compressed file, then what is restored is the uncompressed content under its name, without an error. |
| `C105_salt_violated` | C105 fails: with encryption, every file has its own salt, and the hard link has none. When the data of a deleted file are used for the link to it, they cannot be decrypted. |
| `C105_password_violated` | C105 fails: when a backup is interrupted, `encryption_password` is set and the backup is resumed, then files are sent encrypted although the list of files from before says that they are not. The manifest has them as files that are not encrypted, and they cannot be restored, with or without the password. |
| `C105_compression_violated` | C105 fails: when a backup is interrupted, `compression` is changed to 0 and the backup is resumed, then the deltas of changed files are applied to the compressed data, and something else is restored, or nothing. |
| `C106_asked_violated` | C106 fails: if `timer_repeat_interval` is set, a backup that an administrator has asked for by creating the file `backup` is stopped at the first entry: the file has been removed when the backup began, and the timer, run again at once, does not know about it any more. The next request for a timed backup does not begin one. |
| `C106_check_violated` | C106 fails: a client that only asks whether the timer conditions are met (`-a T`) makes the server forget that a backup has been asked for. |
| `C107_bytes_violated` | C107 fails for the number of bytes with the separate Windows headers (`split_vss`): looking for the last good entry adds the lengths of all entries of the list of changed entries to the number of bytes, also of those that are then cut off because the footer of their group is missing (`src/server/resume.c:313-320`); they are asked for again and counted again. Here a header of 5 bytes has been received; the whole backup has 10 bytes, and after resuming it is said to have 15. |
| `C107_warnings_violated` | C107 fails for the warnings: they are written to neither of the two files, so whatever happened before the interruption, the counters with which a backup goes on have no warnings, and no messages. So the statistics of a resumed backup do not have the warnings from before the interruption, nor those of the scan, and the option `fail_on_warning` (`src/server/backup_phase2.c:1242-1243,1270-1273`) only sees those that come after it. |
| `C109_fork_violated` | C109 fails when a system call fails for a moment: if `accept`, `pipe` or `fork` fails for one connection, for instance because there are too many processes just then, the whole server ends with an error while its children run on, and no later connection is served. |
| `C109_reload_then_end_violated` | C109 fails after the configuration has been loaded again: the server then no longer knows the children that it had before. A later `SIGUSR2` ends it at once, although a child is still at work with its pipe in order. |
| `C109_end_then_reload_violated` | C109 fails when `SIGHUP` comes while the server waits for its children after `SIGUSR2`: it ends at once, although a child is still at work. |
| `C109_gentle_accepts_violated` | C109 fails to end while clients keep coming: after `SIGUSR2` the server goes on to accept new connections, so that even if each child works for one turn only, it has not ended after any number of turns. |
| `C110_background_violated` | C110 fails for a script that leaves something running which holds its output: the script has ended, and burp waits for the other for ever. |
| `C110_nul_violated` | C110 fails for output with a NUL byte: what follows it in the line is neither logged nor sent. |
| `C110_long_line_violated` | C110 fails for a line of more than 255 bytes: it is logged in pieces, each with its own beginning. |
| `C110_args_violated` | C110 fails for a script with more than 63 words on its command line: the rest are left out without a word. |
| `C110_stale_violated` | C110 fails after a script whose `select` failed when it had already ended: the flag stays, and the next script counts as ended with the code of the first, before it has ended. |
| `C111_window_lost_violated` | C111 fails if the server stops after phase 3 has removed the list of changed entries and before it has removed that of the unchanged ones: the next backup fails but creates an empty list, and the one after that takes the two for the lists of phase 2, overwrites the complete manifest and counts as done without any entry that was new or changed. |
| `C111_window_deleted_violated` | C111 fails if the server stops when both lists have been removed and the directory is still the working one: the backup is complete, and the next connection removes it as one whose scan was not completed, although resuming is asked for. |
| `C111_told_then_deleted_violated` | C111 fails for the client in the same way: it has been told that the backup was done. |
| `C111_client_not_told_violated` | C111 fails if the server stops in phase 3 and the backup is resumed: it is completed, but the client is never told, and takes it for a failure. |
| `C111_removal_violated` | C111 fails if the server stops while it removes the directory of a backup that was interrupted in phase 2 and is not to be resumed: when the scan and the file with the settings have gone first, the next backup takes what is left for a backup that was interrupted in phase 3, and a part of a backup counts as done. |
| `C112_bad_client_violated` | C112 fails if the configuration of one client cannot be loaded: bedup reports success, and the clients after it have not been looked at. |
| `C112_empty_argument_violated` | C112 fails for an empty argument: the byte before it is read. |
| `C112_no_link_violated` | C112 fails for every client before the first that has a backup under way: there is no link to read, and the byte before the buffer for its name is read. |
| `C112_negative_violated` | C112 fails for a negative number: it is not refused, and is a limit of thousands of millions. |
| `C112_stops_violated` | C112 fails to hold for the clients after one that has a directory that cannot be opened: the work stops there. |
| `C113_user_only_violated` | C113 fails for a user without a group: burp goes on as the user with the group it was started with, that of root, although the user has a group. |
| `C113_user_only_server_violated` | C113 fails on a server with a user and no group: every client without settings of its own is refused, because its process asks again for the groups, now without the right to. |
| `C113_groups_kept_violated` | C113 fails if the group is the one that burp was started with: burp goes on as the user and still is in all the groups of root. |
| `C113_child_groups_violated` | C113 fails for a client with a user of its own on a server with a group: the process for the client takes the user and keeps the groups of root. |
| `C113_override_violated` | C113 fails for a client whose user differs from that of the server, which the manual says can be overridden: once the server has given up root every such client is refused. |
| `C113_effective_violated` | C113 fails for a program with the rights of another user: only the real ids are looked at, so a user who runs it with the rights of root and is the user of the configuration keeps them. |
| `C114_crash_violated` | C114 fails if the server is killed while it sets up the authority: from then on it takes the directory for a whole authority, and no start ever makes the certificate. |
| `C114_link_violated` | C114 fails for a directory that is a link to another place: the server takes it for one that is not there, `burp_ca` refuses, and the link is removed. The next start makes another authority, which no client knows. |
| `C114_lost_violated` | C114 fails for certificates that were there before: they are removed when an authority is made, and are gone even if that fails. |
| `C114_crl_violated` | C114 fails for a list of revoked certificates with a path of its own: `burp_ca` is not told the path, so after a success there still is no list at that path. |
| `C115_removed_violated` | C115 fails where a session removes a backup while another restores it: the deletion does not look at the lock of the restore, so the restore leaves out the rest and is done all the same. |
| `C115_list_violated` | C115 fails where two restores by lists run at the same time, although they are of different backups: there is one file for the list, so the first picks files by the list of the second. |
| `C115_unlinked_violated` | C115 fails where a restore by a list runs while another ends, even one that was refused for a backup that is not there: the end of any restore removes the file of the list, and the first fails. |
| `C116_manual_violated` | C116 fails with `manual_delete`: all clients have the same place for what is to be deleted. |
| `C116_nested_violated` | C116 fails where a client has a `directory` of its own that is the directory of another client: nothing looks at that, and what is kept for one is among the things of the other. |
| `C116_format_violated` | C116 fails where `timestamp_format` has a separator: the name is that of a place inside of a directory that is not there. |
| `C117_unwatched_violated` | C117 fails for a socket that cannot be watched (`setup_asfd` fails): the server starts all the same, without that address, because `init_listen_socket` goes to `end` and not to `error`. |
| `C117_networks_violated` | C117 fails for the networks of the settings when systemd gives the sockets: `network_allow` and `network_allow_status` are not put on them, so no connection is closed at once, from anywhere. |
| `C117_same_port_violated` | C117 fails for sockets from systemd if `listen` and `listen_status` have the same port on different addresses: only the port is compared, and the socket for monitors is taken for one for clients. |
| `C117_no_socket_violated` | C117 fails for something from systemd that cannot be asked for its port: the error of `sd_is_socket_inet` is less than 0, and that is taken for a yes. |
| `C118_recovered_violated` | C118 fails for data that cannot be put together at first and can be later: if the server is killed after the failure was noted, and the next run puts the data in its place, then the entry is taken out of the manifest all the same, and the file is not in the backup although its data is. |
| `C119_left_over_violated` | C119 fails if a server was killed while it wrote longer statistics before: the temporary file is opened without being emptied, so that the end of the old text follows the new one, and that is reported as success. |
| `C119_short_violated` | C119 fails if a write takes a part only, as on a full disc: what is left in the buffer is never written, the file is cut, and that is reported as success. |
| `C119_signal_violated` | C119 fails if a signal comes while the file is waited for: nothing is written, the file is empty, the earlier statistics are gone, and that is reported as success. |
| `C120_stripped_violated` | C120 fails with `-d /` and stripped paths: what is left of the path does not start with a slash, so that it is restored below the directory where the client is run. |
| `C121_end_violated` | C121 fails when the input ends: a request has gone to the server, but the program stops at once, and the answer is never printed. A request without a newline at its end is not sent at all. |
| `C121_long_violated` | C121 fails for a line of 32025 to 32030 bytes: it is read, but is never sent, and nothing that is typed after it is sent or even read, for ever: it is too long for the buffer to write from, and the program waits for room. |
| `C122_long_violated` | C122 fails for a warning of more than 501 bytes (a long path is enough): its end, where the reason stands, is in neither log, and as the newline is lost the next line is glued to it: two warnings have only one line. |
| `C122_forged_violated` | C122 fails for a text with a newline, which the name of a file can have: the log is as if there had been another warning, with any text and at any time, that no one gave. |
| `C123_size_violated` | C123 fails from 1024 TB: "EB" is printed for 2^50 bytes, which are a PB, and "PB" for 2^60 bytes, which are an EB. So a size looks 1024 times as large as it is, or 1024 times as small. |
| `C124_high_violated` | C124 fails for a descriptor from `FD_SETSIZE`, 1024, on: the loop that closes descriptors ends there, so that each program that is run gets it. |
| `C124_loop_violated` | C124 fails if standard input is closed when burp runs a program whose output it wants: the program then reads, as its standard input, what it writes itself. |
| `C124_leak_violated` | C124 fails if the second pipe cannot be made: the first one is not closed, so that each try takes two more of the descriptors that burp may have. |
| `C125_cn_violated` | C125 fails for a certificate with two common names: burp compares the first with the name of the client, and the script that is to make further checks is told the last. |
| `C125_alike_violated` | C125 fails for values with other characters: different ones look the same to a script. |
| `C126_error_violated` | C126 fails if there is an error in reading: a file whose rest cannot be read is found to be the same as one that ends there, because the error is taken for the end of the file. |
| `C126_unopened_violated` | C126 fails if neither file can be opened: they are found to be the same. |
| `C127_escape_violated` | C127 fails for a command that is not such a character, which nothing keeps the other side from sending: it gets into the log. With an escape the other side can so send the beginning of a sequence for the terminal of who reads the log. |
| `C127_forged_violated` | C127 fails for a message with a newline: what comes after it is a line of the log of its own. |
| `C128_autumn_violated` | C128 fails in the hour that comes twice in autumn, whichever of the two moments `mktime` takes: one of the two is read as the other, although what was written says which it was. |
| `C128_zone_violated` | C128 fails if the server's time zone has been changed since: what is read is wrong by the difference. |
| `C129_missing_violated` | C129 fails for a file that `lstat` does not find: this is put into the log, and the copy is reported to have been made without it. |
| `C129_read_violated` | C129 fails for a file with as many names as the limit of which reading fails: the duplicate ends there, and the copy is reported to have been made. |
| `C129_flush_violated` | C129 fails for such a file when the disk is full at the end: the error is seen by `fclose` only, whose result is not looked at. |
| `C130_error_violated` | C130 fails if the list cannot be read: the file is found to have none, and no more is said about it. |
| `C130_entry_violated` | C130 fails if one of its entries cannot be read: that is taken for the end of the list. |
<!-- end findings -->

Other things seen while reading, without a theorem: `get_new_bno` compares an unsigned number with -1;
`fix_log_finishing` reports failure after repairing; `working` goes before `currenttmp` in the rubble
check; relinking on resume meets EEXIST; the hard-quota message shows the soft quota; `version_to_long`
overflows before authentication; a directory on an excluded file system is sent twice; text after the first size
suffix letter is ignored; `seed_dst = /` gives a doubled slash; `maybe_move_seed_dir` fails with nothing in the
tree; `enc_iv[9]` and `enc_key[256]` are filled without a bound; `rs_infilebuf_fill` and `transfer_gzfile_inl`
can overrun their buffers; `deal_with_receive_end_file` uses `strchr` before its NULL check; bedup's `get_link`
reads before an empty string; JSON names of soft and hard links are swapped; `bytes_to_human` writes EB before
PB; `backupXYZ` is taken for a backup; `restore_link` leaks; `mksock` cuts the path at 107 bytes.
