import Verif.Model.ConfLine
import Verif.Model.Incexc
import Verif.Model.Retention
import Verif.Model.Seed
import Verif.Model.Cntr

/-!
# Settings: `src/conf.c` and `src/conffile.c`

The table of settings, how lines of a configuration file change them, how those of a client are made from the
global ones and the file of the client, and how the include and exclude settings of one side replace those of
the other.

Allocation does not fail. Not on Windows.
-/

namespace Verif.Confs
open Verif.Strlist Verif.ConfLine Verif.BackupNumber

/-- `enum burp_mode`, `src/conf.h:10-15`. -/
inductive Mode where
  | unset | server | client
  deriving DecidableEq, Repr

/-- `enum recovery_method`, `src/conf.h:17-22`. -/
inductive Recovery where
  | unset | delete | resume
  deriving DecidableEq, Repr

/-- `enum rshash`, `src/conf.h:24-29`. -/
inductive Rshash where
  | unset | md4 | blake2
  deriving DecidableEq, Repr

/-- The value of a setting: `struct conf`, `src/conf.h:52-70`. Numbers of type `int` that do not fit are not
wrapped around. Of a floating point number its text is kept, `none` for the default of 0. The pointer to the
counters is left out. -/
inductive Val where
  | str (s : Option Str)
  | int (n : Int)
  | size (n : Nat)
  | lst (l : List Elem)
  | flt (text : Option Str)
  | perm (n : Nat)
  | mode (m : Mode)
  | recovery (m : Recovery)
  | rshash (h : Rshash)
  | cntr
  deriving DecidableEq, Repr

/-- `CONF_FLAG_CC_OVERRIDE`, `CONF_FLAG_INCEXC`, `CONF_FLAG_INCEXC_RESTORE`, `CONF_FLAG_STRLIST_SORTED` and
`CONF_FLAG_STRLIST_REPLACE`, `src/conf.h:4-8`. -/
structure Flags where
  cc : Bool := false
  incexc : Bool := false
  incexcRestore : Bool := false
  sorted : Bool := false
  replace : Bool := false
  deriving DecidableEq, Repr

/-- Name, flags and default of a setting. -/
structure Info where
  field : Str
  flags : Flags
  default : Val
  deriving DecidableEq, Repr

/-- `enum conf_opt`, `src/conf.h:72-318`. -/
inductive Opt where
  | CONFFILE | BURP_MODE | LOCKFILE | PIDFILE | SYSLOG | STDOUT | PROGRESS_COUNTER | SSL_CERT_CA | SSL_CERT
  | SSL_KEY | SSL_KEY_PASSWORD | SSL_PEER_CN | SSL_CIPHERS | SSL_COMPRESSION | SSL_VERIFY_PEER_EARLY | USER
  | GROUP | RATELIMIT | NETWORK_TIMEOUT | CLIENT_IS_WINDOWS | PEER_VERSION | RSHASH | MESSAGE | CNAME_LOWERCASE
  | CNAME_FQDN | VSS_RESTORE | LISTEN | LISTEN_STATUS | NETWORK_ALLOW | NETWORK_ALLOW_STATUS | DIRECTORY
  | TIMESTAMP_FORMAT | CLIENTCONFDIR | SSL_DHFILE | MAX_CHILDREN | MAX_STATUS_CHILDREN | MAX_PARALLEL_BACKUPS
  | CLIENT_LOCKDIR | UMASK | MAX_HARDLINKS | MAX_STORAGE_SUBDIRS | FORK | DAEMON | DIRECTORY_TREE | CA_CONF
  | CA_NAME | CA_SERVER_NAME | CA_BURP_CA | CA_CRL_CHECK | CA_CRL | PASSWORD_CHECK | MANUAL_DELETE
  | RBLK_MEMORY_MAX | SPARSE_SIZE_MAX | MONITOR_LOGFILE | MONITOR_BROWSE_CACHE | MONITOR_EXE
  | BACKUP_FAILOVERS_LEFT | CNAME | PORT | STATUS_PORT | PORT_BACKUP | PORT_RESTORE | PORT_VERIFY | PORT_LIST
  | PORT_DELETE | PASSWORD | PASSWD | ENABLED | SERVER | SERVER_FAILOVER | FAILOVER_ON_BACKUP_ERROR
  | ENCRYPTION_PASSWORD | AUTOUPGRADE_OS | AUTOUPGRADE_DIR | CA_CSR_DIR | RANDOMISE
  | SERVER_CAN_OVERRIDE_INCLUDES | RESTORE_LIST | STARTDIR | INCEXCDIR | INCLUDE | EXCLUDE | FSCHGDIR
  | NOBACKUP | INCEXT | EXCEXT | INCREG | EXCREG | INCLOGIC | EXCLOGIC | EXCFS | INCFS | EXCOM | INCGLOB
  | SEED_SRC | SEED_DST | CROSS_ALL_FILESYSTEMS | READ_ALL_FIFOS | FIFOS | READ_ALL_BLOCKDEVS | BLOCKDEVS
  | MIN_FILE_SIZE | MAX_FILE_SIZE | SPLIT_VSS | STRIP_VSS | VSS_DRIVES | REMOTE_DRIVES | ACL | XATTR | ATIME
  | SCAN_PROBLEM_RAISES_ERROR | OVERWRITE | STRIP | STRIP_FROM_PATH | BACKUP | BACKUP2 | RESTOREPREFIX | REGEX
  | REGEX_CASE_INSENSITIVE | BROWSEFILE | BROWSEDIR | B_SCRIPT_PRE | B_SCRIPT_PRE_ARG | B_SCRIPT_POST
  | B_SCRIPT_POST_ARG | B_SCRIPT_POST_RUN_ON_FAIL | B_SCRIPT_RESERVED_ARGS | R_SCRIPT_PRE | R_SCRIPT_PRE_ARG
  | R_SCRIPT_POST | R_SCRIPT_POST_ARG | R_SCRIPT_POST_RUN_ON_FAIL | R_SCRIPT_RESERVED_ARGS
  | GLOB_AFTER_SCRIPT_PRE | S_SCRIPT_PRE | S_SCRIPT_PRE_ARG | S_SCRIPT_PRE_NOTIFY | S_SCRIPT_POST
  | S_SCRIPT_POST_ARG | S_SCRIPT_POST_RUN_ON_FAIL | S_SCRIPT_POST_NOTIFY | B_SCRIPT | B_SCRIPT_ARG | R_SCRIPT
  | R_SCRIPT_ARG | S_SCRIPT | S_SCRIPT_ARG | S_SCRIPT_NOTIFY | HARDLINKED_ARCHIVE | KEEP
  | WORKING_DIR_RECOVERY_METHOD | FAIL_ON_WARNING | MAX_RESUME_ATTEMPTS | LIBRSYNC | LIBRSYNC_MAX_SIZE
  | COMPRESSION | VERSION_WARN | PATH_LENGTH_WARN | HARD_QUOTA | SOFT_QUOTA | TIMER_SCRIPT | TIMER_ARG
  | TIMER_REPEAT_INTERVAL | LABEL | N_SUCCESS_SCRIPT | N_SUCCESS_ARG | N_SUCCESS_WARNINGS_ONLY
  | N_SUCCESS_CHANGES_ONLY | N_FAILURE_SCRIPT | N_FAILURE_ARG | N_FAILURE_BACKUP_FAILOVERS_LEFT
  | N_FAILURE_BACKUP_WORKING_DELETION | RESTORE_CLIENTS | SUPER_CLIENTS | DEDUP_GROUP | CLIENT_CAN_DELETE
  | CLIENT_CAN_DIFF | CLIENT_CAN_FORCE_BACKUP | CLIENT_CAN_LIST | CLIENT_CAN_MONITOR | CLIENT_CAN_RESTORE
  | CLIENT_CAN_VERIFY | SERVER_CAN_RESTORE | SEND_CLIENT_CNTR | SUPER_CLIENT | RESTORE_PATH | ORIG_CLIENT
  | CONNECT_CLIENT | CNTR | BREAKPOINT | READALL
  deriving DecidableEq, Repr

/-- All of them, in order. -/
def Opt.all : List Opt := [
  .CONFFILE, .BURP_MODE, .LOCKFILE, .PIDFILE, .SYSLOG, .STDOUT, .PROGRESS_COUNTER, .SSL_CERT_CA, .SSL_CERT,
  .SSL_KEY, .SSL_KEY_PASSWORD, .SSL_PEER_CN, .SSL_CIPHERS, .SSL_COMPRESSION, .SSL_VERIFY_PEER_EARLY, .USER,
  .GROUP, .RATELIMIT, .NETWORK_TIMEOUT, .CLIENT_IS_WINDOWS, .PEER_VERSION, .RSHASH, .MESSAGE, .CNAME_LOWERCASE,
  .CNAME_FQDN, .VSS_RESTORE, .LISTEN, .LISTEN_STATUS, .NETWORK_ALLOW, .NETWORK_ALLOW_STATUS, .DIRECTORY,
  .TIMESTAMP_FORMAT, .CLIENTCONFDIR, .SSL_DHFILE, .MAX_CHILDREN, .MAX_STATUS_CHILDREN, .MAX_PARALLEL_BACKUPS,
  .CLIENT_LOCKDIR, .UMASK, .MAX_HARDLINKS, .MAX_STORAGE_SUBDIRS, .FORK, .DAEMON, .DIRECTORY_TREE, .CA_CONF,
  .CA_NAME, .CA_SERVER_NAME, .CA_BURP_CA, .CA_CRL_CHECK, .CA_CRL, .PASSWORD_CHECK, .MANUAL_DELETE,
  .RBLK_MEMORY_MAX, .SPARSE_SIZE_MAX, .MONITOR_LOGFILE, .MONITOR_BROWSE_CACHE, .MONITOR_EXE,
  .BACKUP_FAILOVERS_LEFT, .CNAME, .PORT, .STATUS_PORT, .PORT_BACKUP, .PORT_RESTORE, .PORT_VERIFY, .PORT_LIST,
  .PORT_DELETE, .PASSWORD, .PASSWD, .ENABLED, .SERVER, .SERVER_FAILOVER, .FAILOVER_ON_BACKUP_ERROR,
  .ENCRYPTION_PASSWORD, .AUTOUPGRADE_OS, .AUTOUPGRADE_DIR, .CA_CSR_DIR, .RANDOMISE,
  .SERVER_CAN_OVERRIDE_INCLUDES, .RESTORE_LIST, .STARTDIR, .INCEXCDIR, .INCLUDE, .EXCLUDE, .FSCHGDIR,
  .NOBACKUP, .INCEXT, .EXCEXT, .INCREG, .EXCREG, .INCLOGIC, .EXCLOGIC, .EXCFS, .INCFS, .EXCOM, .INCGLOB,
  .SEED_SRC, .SEED_DST, .CROSS_ALL_FILESYSTEMS, .READ_ALL_FIFOS, .FIFOS, .READ_ALL_BLOCKDEVS, .BLOCKDEVS,
  .MIN_FILE_SIZE, .MAX_FILE_SIZE, .SPLIT_VSS, .STRIP_VSS, .VSS_DRIVES, .REMOTE_DRIVES, .ACL, .XATTR, .ATIME,
  .SCAN_PROBLEM_RAISES_ERROR, .OVERWRITE, .STRIP, .STRIP_FROM_PATH, .BACKUP, .BACKUP2, .RESTOREPREFIX, .REGEX,
  .REGEX_CASE_INSENSITIVE, .BROWSEFILE, .BROWSEDIR, .B_SCRIPT_PRE, .B_SCRIPT_PRE_ARG, .B_SCRIPT_POST,
  .B_SCRIPT_POST_ARG, .B_SCRIPT_POST_RUN_ON_FAIL, .B_SCRIPT_RESERVED_ARGS, .R_SCRIPT_PRE, .R_SCRIPT_PRE_ARG,
  .R_SCRIPT_POST, .R_SCRIPT_POST_ARG, .R_SCRIPT_POST_RUN_ON_FAIL, .R_SCRIPT_RESERVED_ARGS,
  .GLOB_AFTER_SCRIPT_PRE, .S_SCRIPT_PRE, .S_SCRIPT_PRE_ARG, .S_SCRIPT_PRE_NOTIFY, .S_SCRIPT_POST,
  .S_SCRIPT_POST_ARG, .S_SCRIPT_POST_RUN_ON_FAIL, .S_SCRIPT_POST_NOTIFY, .B_SCRIPT, .B_SCRIPT_ARG, .R_SCRIPT,
  .R_SCRIPT_ARG, .S_SCRIPT, .S_SCRIPT_ARG, .S_SCRIPT_NOTIFY, .HARDLINKED_ARCHIVE, .KEEP,
  .WORKING_DIR_RECOVERY_METHOD, .FAIL_ON_WARNING, .MAX_RESUME_ATTEMPTS, .LIBRSYNC, .LIBRSYNC_MAX_SIZE,
  .COMPRESSION, .VERSION_WARN, .PATH_LENGTH_WARN, .HARD_QUOTA, .SOFT_QUOTA, .TIMER_SCRIPT, .TIMER_ARG,
  .TIMER_REPEAT_INTERVAL, .LABEL, .N_SUCCESS_SCRIPT, .N_SUCCESS_ARG, .N_SUCCESS_WARNINGS_ONLY,
  .N_SUCCESS_CHANGES_ONLY, .N_FAILURE_SCRIPT, .N_FAILURE_ARG, .N_FAILURE_BACKUP_FAILOVERS_LEFT,
  .N_FAILURE_BACKUP_WORKING_DELETION, .RESTORE_CLIENTS, .SUPER_CLIENTS, .DEDUP_GROUP, .CLIENT_CAN_DELETE,
  .CLIENT_CAN_DIFF, .CLIENT_CAN_FORCE_BACKUP, .CLIENT_CAN_LIST, .CLIENT_CAN_MONITOR, .CLIENT_CAN_RESTORE,
  .CLIENT_CAN_VERIFY, .SERVER_CAN_RESTORE, .SEND_CLIENT_CNTR, .SUPER_CLIENT, .RESTORE_PATH, .ORIG_CLIENT,
  .CONNECT_CLIENT, .CNTR, .BREAKPOINT, .READALL]

/-- `reset_conf`, `src/conf.c:350-837`. -/
def Opt.info : Opt → Info
  | .CONFFILE => ⟨bytes "conffile", { cc := true }, .str none⟩
  | .BURP_MODE => ⟨bytes "mode", {}, .mode .unset⟩
  | .LOCKFILE => ⟨bytes "lockfile", {}, .str none⟩
  | .PIDFILE => ⟨bytes "pidfile", {}, .str none⟩
  | .SYSLOG => ⟨bytes "syslog", { cc := true }, .int 0⟩
  | .STDOUT => ⟨bytes "stdout", { cc := true }, .int 1⟩
  | .PROGRESS_COUNTER => ⟨bytes "progress_counter", { cc := true }, .int 0⟩
  | .SSL_CERT_CA => ⟨bytes "ssl_cert_ca", {}, .str none⟩
  | .SSL_CERT => ⟨bytes "ssl_cert", {}, .str none⟩
  | .SSL_KEY => ⟨bytes "ssl_key", {}, .str none⟩
  | .SSL_KEY_PASSWORD => ⟨bytes "ssl_key_password", {}, .str none⟩
  | .SSL_PEER_CN => ⟨bytes "ssl_peer_cn", {}, .str none⟩
  | .SSL_CIPHERS => ⟨bytes "ssl_ciphers", {}, .str none⟩
  | .SSL_COMPRESSION => ⟨bytes "ssl_compression", {}, .int 5⟩
  | .SSL_VERIFY_PEER_EARLY => ⟨bytes "ssl_verify_peer_early", {}, .int 0⟩
  | .USER => ⟨bytes "user", { cc := true }, .str none⟩
  | .GROUP => ⟨bytes "group", { cc := true }, .str none⟩
  | .RATELIMIT => ⟨bytes "ratelimit", {}, .flt none⟩
  | .NETWORK_TIMEOUT => ⟨bytes "network_timeout", {}, .int 7200⟩
  | .CLIENT_IS_WINDOWS => ⟨bytes "client_is_windows", {}, .int 0⟩
  | .PEER_VERSION => ⟨bytes "peer_version", {}, .str none⟩
  | .RSHASH => ⟨[], { cc := true }, .rshash .unset⟩
  | .MESSAGE => ⟨[], { cc := true }, .int 0⟩
  | .CNAME_LOWERCASE => ⟨bytes "cname_lowercase", {}, .int 0⟩
  | .CNAME_FQDN => ⟨bytes "cname_fqdn", {}, .int 1⟩
  | .VSS_RESTORE => ⟨[], {}, .int 2⟩
  | .LISTEN => ⟨bytes "listen", {}, .lst []⟩
  | .LISTEN_STATUS => ⟨bytes "listen_status", {}, .lst []⟩
  | .NETWORK_ALLOW => ⟨bytes "network_allow", { cc := true, replace := true }, .lst []⟩
  | .NETWORK_ALLOW_STATUS => ⟨bytes "network_allow_status", { cc := true, replace := true }, .lst []⟩
  | .DIRECTORY => ⟨bytes "directory", { cc := true }, .str none⟩
  | .TIMESTAMP_FORMAT => ⟨bytes "timestamp_format", { cc := true }, .str none⟩
  | .CLIENTCONFDIR => ⟨bytes "clientconfdir", { cc := true }, .str none⟩
  | .SSL_DHFILE => ⟨bytes "ssl_dhfile", {}, .str none⟩
  | .MAX_CHILDREN => ⟨bytes "max_children", {}, .lst []⟩
  | .MAX_STATUS_CHILDREN => ⟨bytes "max_status_children", {}, .lst []⟩
  | .MAX_PARALLEL_BACKUPS => ⟨bytes "max_parallel_backups", { cc := true }, .int 0⟩
  | .CLIENT_LOCKDIR => ⟨bytes "client_lockdir", { cc := true }, .str none⟩
  | .UMASK => ⟨bytes "umask", {}, .perm 18⟩
  | .MAX_HARDLINKS => ⟨bytes "max_hardlinks", {}, .int 10000⟩
  | .MAX_STORAGE_SUBDIRS => ⟨bytes "max_storage_subdirs", {}, .int 30000⟩
  | .FORK => ⟨bytes "fork", {}, .int 1⟩
  | .DAEMON => ⟨bytes "daemon", {}, .int 1⟩
  | .DIRECTORY_TREE => ⟨bytes "directory_tree", { cc := true }, .int 1⟩
  | .CA_CONF => ⟨bytes "ca_conf", {}, .str none⟩
  | .CA_NAME => ⟨bytes "ca_name", {}, .str none⟩
  | .CA_SERVER_NAME => ⟨bytes "ca_server_name", {}, .str none⟩
  | .CA_BURP_CA => ⟨bytes "ca_burp_ca", {}, .str none⟩
  | .CA_CRL_CHECK => ⟨bytes "ca_crl_check", {}, .int 0⟩
  | .CA_CRL => ⟨bytes "ca_crl", {}, .str none⟩
  | .PASSWORD_CHECK => ⟨bytes "password_check", { cc := true }, .int 1⟩
  | .MANUAL_DELETE => ⟨bytes "manual_delete", { cc := true }, .str none⟩
  | .RBLK_MEMORY_MAX => ⟨bytes "rblk_memory_max", { cc := true }, .size (256 * 1024 * 1024)⟩
  | .SPARSE_SIZE_MAX => ⟨bytes "sparse_size_max", { cc := true }, .size (256 * 1024 * 1024)⟩
  | .MONITOR_LOGFILE => ⟨bytes "monitor_logfile", {}, .str none⟩
  | .MONITOR_BROWSE_CACHE => ⟨bytes "monitor_browse_cache", { cc := true }, .int 0⟩
  | .MONITOR_EXE => ⟨bytes "monitor_exe", {}, .str none⟩
  | .BACKUP_FAILOVERS_LEFT => ⟨[], {}, .int 0⟩
  | .CNAME => ⟨bytes "cname", {}, .str none⟩
  | .PORT => ⟨bytes "port", {}, .lst []⟩
  | .STATUS_PORT => ⟨bytes "status_port", {}, .lst []⟩
  | .PORT_BACKUP => ⟨bytes "port_backup", {}, .int 0⟩
  | .PORT_RESTORE => ⟨bytes "port_restore", {}, .int 0⟩
  | .PORT_VERIFY => ⟨bytes "port_verify", {}, .int 0⟩
  | .PORT_LIST => ⟨bytes "port_list", {}, .int 0⟩
  | .PORT_DELETE => ⟨bytes "port_delete", {}, .int 0⟩
  | .PASSWORD => ⟨bytes "password", {}, .str none⟩
  | .PASSWD => ⟨bytes "passwd", {}, .str none⟩
  | .ENABLED => ⟨bytes "enabled", { cc := true }, .int 1⟩
  | .SERVER => ⟨bytes "server", {}, .str none⟩
  | .SERVER_FAILOVER => ⟨bytes "server_failover", {}, .lst []⟩
  | .FAILOVER_ON_BACKUP_ERROR => ⟨bytes "failover_on_backup_error", {}, .int 0⟩
  | .ENCRYPTION_PASSWORD => ⟨bytes "encryption_password", {}, .str none⟩
  | .AUTOUPGRADE_OS => ⟨bytes "autoupgrade_os", {}, .str none⟩
  | .AUTOUPGRADE_DIR => ⟨bytes "autoupgrade_dir", {}, .str none⟩
  | .CA_CSR_DIR => ⟨bytes "ca_csr_dir", {}, .str none⟩
  | .RANDOMISE => ⟨bytes "randomise", {}, .int 0⟩
  | .SERVER_CAN_OVERRIDE_INCLUDES => ⟨bytes "server_can_override_includes", {}, .int 1⟩
  | .RESTORE_LIST => ⟨bytes "restore_list", {}, .str none⟩
  | .STARTDIR => ⟨bytes "startdir", {}, .lst []⟩
  | .INCEXCDIR => ⟨bytes "incexcdir", { sorted := true }, .lst []⟩
  | .INCLUDE => ⟨bytes "include", { incexc := true, incexcRestore := true, sorted := true }, .lst []⟩
  | .EXCLUDE => ⟨bytes "exclude", { incexc := true, incexcRestore := true, sorted := true }, .lst []⟩
  | .FSCHGDIR => ⟨bytes "cross_filesystem", { incexc := true, sorted := true }, .lst []⟩
  | .NOBACKUP => ⟨bytes "nobackup", { incexc := true, sorted := true }, .lst []⟩
  | .INCEXT => ⟨bytes "include_ext", { incexc := true, sorted := true }, .lst []⟩
  | .EXCEXT => ⟨bytes "exclude_ext", { incexc := true, sorted := true }, .lst []⟩
  | .INCREG => ⟨bytes "include_regex", { incexc := true, sorted := true }, .lst []⟩
  | .EXCREG => ⟨bytes "exclude_regex", { incexc := true, sorted := true }, .lst []⟩
  | .INCLOGIC => ⟨bytes "include_logic", { incexc := true, sorted := true }, .lst []⟩
  | .EXCLOGIC => ⟨bytes "exclude_logic", { incexc := true, sorted := true }, .lst []⟩
  | .EXCFS => ⟨bytes "exclude_fs", { incexc := true, sorted := true }, .lst []⟩
  | .INCFS => ⟨bytes "include_fs", { incexc := true, sorted := true }, .lst []⟩
  | .EXCOM => ⟨bytes "exclude_comp", { incexc := true, sorted := true }, .lst []⟩
  | .INCGLOB => ⟨bytes "include_glob", { incexc := true, sorted := true }, .lst []⟩
  | .SEED_SRC => ⟨bytes "seed_src", {}, .str none⟩
  | .SEED_DST => ⟨bytes "seed_dst", {}, .str none⟩
  | .CROSS_ALL_FILESYSTEMS => ⟨bytes "cross_all_filesystems", { incexc := true }, .int 0⟩
  | .READ_ALL_FIFOS => ⟨bytes "read_all_fifos", { incexc := true }, .int 0⟩
  | .FIFOS => ⟨bytes "read_fifo", { incexc := true }, .lst []⟩
  | .READ_ALL_BLOCKDEVS => ⟨bytes "read_all_blockdevs", { incexc := true }, .int 0⟩
  | .BLOCKDEVS => ⟨bytes "read_blockdev", { incexc := true }, .lst []⟩
  | .MIN_FILE_SIZE => ⟨bytes "min_file_size", { incexc := true }, .size 0⟩
  | .MAX_FILE_SIZE => ⟨bytes "max_file_size", { incexc := true }, .size 0⟩
  | .SPLIT_VSS => ⟨bytes "split_vss", { incexc := true }, .int 0⟩
  | .STRIP_VSS => ⟨bytes "strip_vss", { incexc := true }, .int 0⟩
  | .VSS_DRIVES => ⟨bytes "vss_drives", { incexc := true }, .str none⟩
  | .REMOTE_DRIVES => ⟨bytes "remote_drives", { incexc := true }, .str none⟩
  | .ACL => ⟨bytes "acl", { incexc := true }, .int 1⟩
  | .XATTR => ⟨bytes "xattr", { incexc := true }, .int 1⟩
  | .ATIME => ⟨bytes "atime", { incexc := true }, .int 0⟩
  | .SCAN_PROBLEM_RAISES_ERROR => ⟨bytes "scan_problem_raises_error", { incexc := true }, .int 0⟩
  | .OVERWRITE => ⟨bytes "overwrite", { incexc := true, incexcRestore := true }, .int 0⟩
  | .STRIP => ⟨bytes "strip", { incexc := true, incexcRestore := true }, .int 0⟩
  | .STRIP_FROM_PATH => ⟨bytes "stripfrompath", { incexcRestore := true }, .str none⟩
  | .BACKUP => ⟨bytes "backup", { incexcRestore := true }, .str none⟩
  | .BACKUP2 => ⟨bytes "backup2", {}, .str none⟩
  | .RESTOREPREFIX => ⟨bytes "restoreprefix", { incexcRestore := true }, .str none⟩
  | .REGEX => ⟨bytes "regex", { incexc := true, incexcRestore := true }, .str none⟩
  | .REGEX_CASE_INSENSITIVE => ⟨bytes "regex_case_insensitive", { incexc := true, incexcRestore := true }, .int 0⟩
  | .BROWSEFILE => ⟨bytes "browsefile", {}, .str none⟩
  | .BROWSEDIR => ⟨bytes "browsedir", {}, .str none⟩
  | .B_SCRIPT_PRE => ⟨bytes "backup_script_pre", {}, .str none⟩
  | .B_SCRIPT_PRE_ARG => ⟨bytes "backup_script_pre_arg", {}, .lst []⟩
  | .B_SCRIPT_POST => ⟨bytes "backup_script_post", {}, .str none⟩
  | .B_SCRIPT_POST_ARG => ⟨bytes "backup_script_post_arg", {}, .lst []⟩
  | .B_SCRIPT_POST_RUN_ON_FAIL => ⟨bytes "backup_script_post_run_on_fail", {}, .int 0⟩
  | .B_SCRIPT_RESERVED_ARGS => ⟨bytes "backup_script_reserved_args", {}, .int 1⟩
  | .R_SCRIPT_PRE => ⟨bytes "restore_script_pre", {}, .str none⟩
  | .R_SCRIPT_PRE_ARG => ⟨bytes "restore_script_pre_arg", {}, .lst []⟩
  | .R_SCRIPT_POST => ⟨bytes "restore_script_post", {}, .str none⟩
  | .R_SCRIPT_POST_ARG => ⟨bytes "restore_script_post_arg", {}, .lst []⟩
  | .R_SCRIPT_POST_RUN_ON_FAIL => ⟨bytes "restore_script_post_run_on_fail", {}, .int 0⟩
  | .R_SCRIPT_RESERVED_ARGS => ⟨bytes "restore_script_reserved_args", {}, .int 1⟩
  | .GLOB_AFTER_SCRIPT_PRE => ⟨bytes "glob_after_script_pre", {}, .int 1⟩
  | .S_SCRIPT_PRE => ⟨bytes "server_script_pre", { cc := true }, .str none⟩
  | .S_SCRIPT_PRE_ARG => ⟨bytes "server_script_pre_arg", { cc := true, replace := true }, .lst []⟩
  | .S_SCRIPT_PRE_NOTIFY => ⟨bytes "server_script_pre_notify", { cc := true }, .int 0⟩
  | .S_SCRIPT_POST => ⟨bytes "server_script_post", { cc := true }, .str none⟩
  | .S_SCRIPT_POST_ARG => ⟨bytes "server_script_post_arg", { cc := true, replace := true }, .lst []⟩
  | .S_SCRIPT_POST_RUN_ON_FAIL => ⟨bytes "server_script_post_run_on_fail", { cc := true }, .int 0⟩
  | .S_SCRIPT_POST_NOTIFY => ⟨bytes "server_script_post_notify", { cc := true }, .int 0⟩
  | .B_SCRIPT => ⟨bytes "backup_script", {}, .str none⟩
  | .B_SCRIPT_ARG => ⟨bytes "backup_script_arg", {}, .lst []⟩
  | .R_SCRIPT => ⟨bytes "restore_script", {}, .str none⟩
  | .R_SCRIPT_ARG => ⟨bytes "restore_script_arg", {}, .lst []⟩
  | .S_SCRIPT => ⟨bytes "server_script", { cc := true }, .str none⟩
  | .S_SCRIPT_ARG => ⟨bytes "server_script_arg", { cc := true, replace := true }, .lst []⟩
  | .S_SCRIPT_NOTIFY => ⟨bytes "server_script_notify", { cc := true }, .int 0⟩
  | .HARDLINKED_ARCHIVE => ⟨bytes "hardlinked_archive", { cc := true }, .int 0⟩
  | .KEEP => ⟨bytes "keep", { cc := true, replace := true }, .lst []⟩
  | .WORKING_DIR_RECOVERY_METHOD => ⟨bytes "working_dir_recovery_method", { cc := true }, .recovery .delete⟩
  | .FAIL_ON_WARNING => ⟨bytes "fail_on_warning", { cc := true }, .int 0⟩
  | .MAX_RESUME_ATTEMPTS => ⟨bytes "max_resume_attempts", { cc := true }, .int 0⟩
  | .LIBRSYNC => ⟨bytes "librsync", { cc := true }, .int 1⟩
  | .LIBRSYNC_MAX_SIZE => ⟨bytes "librsync_max_size", { cc := true }, .size 0⟩
  | .COMPRESSION => ⟨bytes "compression", { cc := true }, .int 9⟩
  | .VERSION_WARN => ⟨bytes "version_warn", { cc := true }, .int 1⟩
  | .PATH_LENGTH_WARN => ⟨bytes "path_length_warn", { cc := true }, .int 1⟩
  | .HARD_QUOTA => ⟨bytes "hard_quota", { cc := true }, .size 0⟩
  | .SOFT_QUOTA => ⟨bytes "soft_quota", { cc := true }, .size 0⟩
  | .TIMER_SCRIPT => ⟨bytes "timer_script", { cc := true }, .str none⟩
  | .TIMER_ARG => ⟨bytes "timer_arg", { cc := true, replace := true }, .lst []⟩
  | .TIMER_REPEAT_INTERVAL => ⟨bytes "timer_repeat_interval", { cc := true }, .int 0⟩
  | .LABEL => ⟨bytes "label", { cc := true, replace := true }, .lst []⟩
  | .N_SUCCESS_SCRIPT => ⟨bytes "notify_success_script", { cc := true }, .str none⟩
  | .N_SUCCESS_ARG => ⟨bytes "notify_success_arg", { cc := true, replace := true }, .lst []⟩
  | .N_SUCCESS_WARNINGS_ONLY => ⟨bytes "notify_success_warnings_only", { cc := true }, .int 0⟩
  | .N_SUCCESS_CHANGES_ONLY => ⟨bytes "notify_success_changes_only", { cc := true }, .int 0⟩
  | .N_FAILURE_SCRIPT => ⟨bytes "notify_failure_script", { cc := true }, .str none⟩
  | .N_FAILURE_ARG => ⟨bytes "notify_failure_arg", { cc := true, replace := true }, .lst []⟩
  | .N_FAILURE_BACKUP_FAILOVERS_LEFT => ⟨bytes "notify_failure_on_backup_with_failovers_left", { cc := true }, .int 1⟩
  | .N_FAILURE_BACKUP_WORKING_DELETION => ⟨bytes "notify_failure_on_backup_working_dir_deletion", { cc := true }, .int 0⟩
  | .RESTORE_CLIENTS => ⟨bytes "restore_client", { cc := true, sorted := true }, .lst []⟩
  | .SUPER_CLIENTS => ⟨bytes "super_client", { cc := true, sorted := true }, .lst []⟩
  | .DEDUP_GROUP => ⟨bytes "dedup_group", { cc := true }, .str none⟩
  | .CLIENT_CAN_DELETE => ⟨bytes "client_can_delete", { cc := true }, .int 1⟩
  | .CLIENT_CAN_DIFF => ⟨bytes "client_can_diff", { cc := true }, .int 1⟩
  | .CLIENT_CAN_FORCE_BACKUP => ⟨bytes "client_can_force_backup", { cc := true }, .int 1⟩
  | .CLIENT_CAN_LIST => ⟨bytes "client_can_list", { cc := true }, .int 1⟩
  | .CLIENT_CAN_MONITOR => ⟨bytes "client_can_monitor", { cc := true }, .int 1⟩
  | .CLIENT_CAN_RESTORE => ⟨bytes "client_can_restore", { cc := true }, .int 1⟩
  | .CLIENT_CAN_VERIFY => ⟨bytes "client_can_verify", { cc := true }, .int 1⟩
  | .SERVER_CAN_RESTORE => ⟨bytes "server_can_restore", { cc := true }, .int 1⟩
  | .SEND_CLIENT_CNTR => ⟨bytes "send_client_cntr", {}, .int 0⟩
  | .SUPER_CLIENT => ⟨[], {}, .str none⟩
  | .RESTORE_PATH => ⟨bytes "restore_path", {}, .str none⟩
  | .ORIG_CLIENT => ⟨bytes "orig_client", { incexcRestore := true }, .str none⟩
  | .CONNECT_CLIENT => ⟨[], {}, .str none⟩
  | .CNTR => ⟨[], {}, .cntr⟩
  | .BREAKPOINT => ⟨bytes "breakpoint", { cc := true }, .int 0⟩
  | .READALL => ⟨bytes "readall", { cc := true }, .int 0⟩

/-- All settings: `struct conf **`. -/
abbrev Confs := Opt → Val

/-- `confs_init`, `src/conf.c:987-994`. -/
def init : Confs := fun o => o.info.default

/-- Change one setting. -/
def set (c : Confs) (o : Opt) (v : Val) : Confs := fun p => if p = o then v else c p

/-- `get_string`, `src/conf.c:70-74`. -/
def getStr (c : Confs) (o : Opt) : Option Str := match c o with | .str s => s | _ => none

/-- `get_int`, `src/conf.c:76-80`. -/
def getInt (c : Confs) (o : Opt) : Int := match c o with | .int n => n | _ => 0

/-- `get_strlist`, `src/conf.c:64-68`. -/
def getLst (c : Confs) (o : Opt) : List Elem := match c o with | .lst l => l | _ => []

/-- `get_uint64_t`, `src/conf.c:82-86`. -/
def getSize (c : Confs) (o : Opt) : Nat := match c o with | .size n => n | _ => 0

/-- `get_e_burp_mode`, `src/conf.c:100-104`. -/
def getMode (c : Confs) : Mode := match c .BURP_MODE with | .mode m => m | _ => .unset

/-- `add_to_strlist`, `src/conf.c:196-203`. -/
def addTo (o : Opt) (l : List Elem) (x : Elem) : List Elem :=
  if o.info.flags.sorted then Strlist.addSorted l x else Strlist.add l x

/-- `conf_free_content`, `src/conf.c:210-234`. -/
def blank : Val → Val
  | .str _ => .str none
  | .int _ => .int 0
  | .size _ => .size 0
  | .lst _ => .lst []
  | .flt _ => .flt none
  | .perm _ => .perm 0
  | .mode _ => .mode .unset
  | .recovery _ => .recovery .unset
  | .rshash _ => .rshash .unset
  | .cntr => .cntr

/-- `free_incexcs`, `src/conf.c:262-269`. -/
def freeIncexcs (c : Confs) : Confs := fun o => if o.info.flags.incexc then blank (c o) else c o

/-- What is outside: the file system, and libraries. -/
structure Env where
  /-- the lines of the files that a line `. pattern` stands for, in the order in which they are read. Those of
  files that are included by them are among them. `none` if one cannot be read, or there is none. -/
  included : Str → Option (List Str)
  /-- what `glob` finds -/
  glob : Str → List Str
  /-- `atof` gives 0 -/
  zero : Str → Bool
  /-- the number of a type of file system, 0 if it is unknown (`finalise_fstypes`, `src/conffile.c:1014-1036`) -/
  fstype : Str → Int
  /-- the options given with `-o` -/
  cli : List Str

/-- What comes of reading settings. -/
inductive Out where
  /-- memory outside of a string is read -/
  | undefined
  | error
  | ok (c : Confs)

/-- Go on if there was no error. -/
def Out.bind (r : Out) (f : Confs → Out) : Out := match r with
  | .undefined => .undefined
  | .error => .error
  | .ok c => f c

/-- `get_compression`, `src/conffile.c:249-258`. -/
def getCompression (v : Str) : Option Int :=
  let cp := if (bytes "gzip").isPrefixOf v || (bytes "zlib").isPrefixOf v then v.drop 4 else v
  match cp with
  | [d] => if isDigit d then some (Cntr.atoi cp) else none
  | _ => none

/-- `str_to_burp_mode`, `src/conf.c:12-20`. -/
def strToMode (v : Str) : Mode :=
  if v = bytes "server" then .server else if v = bytes "client" then .client else .unset

/-- `str_to_recovery_method`, `src/conf.c:33-41`. -/
def strToRecovery (v : Str) : Recovery :=
  if v = bytes "delete" then .delete else if v = bytes "resume" then .resume else .unset

/-- `strtol(v, NULL, 8)` for digits without a sign. -/
def octal (v : Str) : Nat :=
  (v.takeWhile (fun c => decide (48 ≤ c ∧ c < 56))).foldl (fun n c => n * 8 + (c.toNat - 48)) 0

/-- The `switch` in `load_conf_field_and_value`, `src/conffile.c:298-335`: the new value of a setting. -/
def newVal (o : Opt) (old : Val) (v : Str) (reset : Bool) : Option Val :=
  match old with
  | .str _ => some (.str (some v))
  | .int _ => some (.int (Cntr.atoi v))
  | .flt _ => some (.flt (some v))
  | .perm _ => some (.perm (octal v))
  | .size _ => (getFileSize v).map .size
  | .mode _ => some (.mode (strToMode v))
  | .recovery _ => some (.recovery (strToRecovery v))
  | .lst l => some (.lst (addTo o (if reset then [] else l) ⟨v, if o.info.field = bytes "include" then 1 else 0⟩))
  | .rshash h => some (.rshash h)
  | .cntr => some .cntr

/-- `load_conf_field_and_value`, `src/conffile.c:260-338`. No name is there twice, except for the empty one, which
does not come here. A name that is not known is ignored. -/
def loadField (env : Env) (c : Confs) (f v : Str) (reset : Bool) : Option Confs :=
  if f = bytes "compression" then (getCompression v).map (fun n => set c .COMPRESSION (.int n))
  else if f = bytes "ssl_compression" then (getCompression v).map (fun n => set c .SSL_COMPRESSION (.int n))
  else if f = bytes "ratelimit" then if env.zero v then none else some (set c .RATELIMIT (.flt (some v)))
  else match Opt.all.find? (fun o => o.info.field = f) with
    | none => some c
    | some o => (newVal o (c o) v reset).map (fun x => set c o x)

/-- `conf_parse_line`, `src/conffile.c:391-422`, for a line that does not include other files. -/
def parsePair (env : Env) (c : Confs) (line : Str) : Out :=
  match getPair line with
  | .undefined => .undefined
  | .error => .error
  | .blank => .ok c
  | .pair f v reset => match loadField env c f v reset with
    | none => .error
    | some c => .ok c

/-- Lines one after the other. `conf_load_lines_from_file`, `src/conffile.c:1296-1319`, goes on after an error,
but returns it in the end. -/
def parsePairs (env : Env) (c : Confs) : List Str → Out
  | [] => .ok c
  | l :: ls => (parsePair env c l).bind (fun c => parsePairs env c ls)

/-- `conf_parse_line`, `src/conffile.c:391-422`, with `deal_with_dot_inclusion`, 344-389. -/
def parseLine (env : Env) (c : Confs) (line : Str) : Out :=
  if (bytes ". ").isPrefixOf line then
    match env.included ((line.drop 2).takeWhile (fun b => b ≠ newline)) with
    | none => .error
    | some ls => parsePairs env c ls
  else parsePair env c line

/-- `conf_load_lines_from_file`, `src/conffile.c:1296-1319`, and the loop of `apply_cli_overrides`, 1160-1172. Lines
are shorter than 4095 bytes. -/
def loadLines (env : Env) (c : Confs) : List Str → Out
  | [] => .ok c
  | l :: ls => (parseLine env c l).bind (fun c => loadLines env c ls)

/-- `strtok` with `"\n"`, again and again: the lines that are not empty. `cur` is the line so far. -/
def bufLines (cur : Str) : Str → List Str
  | [] => if cur = [] then [] else [cur]
  | x :: xs =>
    if x = newline then
      if cur = [] then bufLines [] xs else cur :: bufLines [] xs
    else bufLines (cur ++ [x]) xs

/-- `conf_load_lines_from_buf`, `src/conffile.c:1324-1352`. -/
def loadBuf (env : Env) (c : Confs) (buf : Str) : Out :=
  match bufLines [] buf with
  | [] => .error
  | l :: ls => loadLines env c (l :: ls)

/-- `finalise_fstypes`, `src/conffile.c:1014-1036`. -/
def finFstypes (env : Env) (c : Confs) (o : Opt) : Confs :=
  set c o (.lst ((getLst c o).map (fun e => { e with flag := env.fstype e.path })))

/-- `set_max_ext`, `src/conffile.c:1001-1012`. -/
def setMaxExt (c : Confs) (o : Opt) : Confs :=
  match getLst c o with
  | [] => c
  | e :: l => set c o (.lst ({ e with flag := Find.maxExt ((e :: l).map Elem.path) } :: l))

/-- `finalise_glob`, `src/conffile.c:955-980`. -/
def finGlob (env : Env) (c : Confs) : Confs :=
  set c .INCLUDE (.lst (((getLst c .INCGLOB).flatMap (fun e => env.glob e.path)).foldl
    (fun l p => Strlist.addSortedUniq l ⟨p, 1⟩) (getLst c .INCLUDE)))

/-- `finalise_incexc_dirs`, `src/conffile.c:828-850`. The list that is added to is not emptied first. -/
def finIncexcDirs (c : Confs) : Option Confs :=
  match Incexc.munge (getLst c .INCEXCDIR) (getLst c .INCLUDE ++ getLst c .EXCLUDE) with
  | none => none
  | some l =>
    if getLst c .INCREG ≠ [] && getLst c .INCLUDE = [] && getLst c .INCGLOB = [] then none
    else if Incexc.hasDupes none l then none
    else some (set c .INCEXCDIR (.lst l))

/-- `add_to_cross_filesystem`, `src/conffile.c:852-857`. -/
def addCross (l : List Elem) (path : Str) : List Elem :=
  if Strlist.find l path 0 then l else addTo .FSCHGDIR l ⟨path, 0⟩

/-- The loop of `finalise_start_dirs`, `src/conffile.c:891-920`, as far as it is about `cross_filesystem`. -/
def crossLoop (cross : List Elem) (last : Option Elem) : List Elem → List Elem
  | [] => cross
  | s :: ss => match last with
    | none => crossLoop cross (some s) ss
    | some l =>
      if PathCmp.isSubdir l.path s.path = 0 then crossLoop cross (some s) ss
      else crossLoop (addCross cross s.path) last ss

/-- `finalise_start_dirs`, `src/conffile.c:882-931`. -/
def finStartDirs (c : Confs) : Option Confs :=
  match Incexc.startDirs (getLst c .INCLUDE) with
  | none => none
  | some l =>
    if Seed.checkStartDirs (getStr c .SEED_SRC) (l.map Elem.path) then
      some (set (set c .FSCHGDIR (.lst (crossLoop (getLst c .FSCHGDIR) none (getLst c .INCLUDE)))) .STARTDIR (.lst l))
    else none

/-- `finalise_fschg_dirs`, `src/conffile.c:933-939`. -/
def finFschgDirs (c : Confs) : Confs :=
  set c .FSCHGDIR (.lst ((getLst c .FSCHGDIR).map (fun e => { e with path := Seed.stripTrailing e.path })))

/-- `finalise_keep_args`, `src/conffile.c:759-789`. -/
def finKeep (c : Confs) : Option Confs :=
  (Retention.finaliseKeepArgs ((getLst c .KEEP).map (fun e => Cntr.atoi e.path))).map (fun ks =>
    set c .KEEP (.lst (List.zipWith (fun e k => { e with flag := k }) (getLst c .KEEP) ks)))

/-- `isalnum`. -/
def isAlnum (b : Byte) : Bool :=
  isDigit b || decide (65 ≤ b ∧ b ≤ 90) || decide (97 ≤ b ∧ b ≤ 122)

/-- `listen_config_ok`, `src/conffile.c:1055-1077`. -/
def listenOk (l : Str) : Bool :=
  l.all (fun b => isAlnum b || b = 58 || b = 46) &&
  l.contains 58 &&
  (let port := (l.reverse.takeWhile (fun b => b ≠ 58)).reverse
   decide (port.length < l.length - 1) && decide (0 < port.length ∧ port.length ≤ 5) &&
   decide (0 < Cntr.atoi port ∧ Cntr.atoi port ≤ 65535))

/-- The loop of `finalise_server_max_children`, `src/conffile.c:1086-1118`. -/
def maxChildrenLoop : (max : Int) → List Elem → List Elem → Option (List Elem)
  | _, [], [] => some []
  | _, [], _ :: _ => none
  | max, l :: ls, [] =>
    if listenOk l.path then (maxChildrenLoop max ls []).map (fun r => { l with flag := max } :: r) else none
  | _, l :: ls, m :: ms =>
    if listenOk l.path then
      if Cntr.atoi m.path ≤ 0 then none
      else (maxChildrenLoop (Cntr.atoi m.path) ls ms).map (fun r => { l with flag := Cntr.atoi m.path } :: r)
    else none

/-- `finalise_server_max_children`, `src/conffile.c:1079-1127`. -/
def finMaxChildren (c : Confs) (listen max : Opt) : Option Confs :=
  (maxChildrenLoop 5 (getLst c listen) (getLst c max)).map (fun l => set c listen (.lst l))

/-- `finalise_client_ports`, `src/conffile.c:1129-1152`. -/
def finPorts (c : Confs) : Confs :=
  match (getLst c .PORT).getLast? with
  | none => c
  | some p =>
    let port := Cntr.atoi p.path
    if port = 0 then c
    else
      let dflt (c : Confs) (o : Opt) (n : Int) : Confs := if getInt c o = 0 then set c o (.int n) else c
      let c := dflt c .PORT_BACKUP port
      let c := dflt c .PORT_RESTORE port
      let c := dflt c .PORT_VERIFY (getInt c .PORT_RESTORE)
      let c := dflt c .PORT_LIST port
      dflt c .PORT_DELETE port

/-- `pre_post_override`, `src/conffile.c:152-161`. -/
def prePost (c : Confs) (o pre post : Opt) : Confs :=
  match getStr c o with
  | none => c
  | some v => set (set c pre (.str (some v))) post (.str (some v))

/-- `setup_script_arg_overrides`, `src/conffile.c:1037-1053`. The lists of arguments are not sorted. -/
def prePostArg (c : Confs) (o pre post : Opt) : Confs :=
  match getLst c o with
  | [] => c
  | l => set (set c pre (.lst l)) post (.lst l)

/-- The end of `conf_finalise`, `src/conffile.c:1235-1262`. -/
def finScripts (c : Confs) : Confs :=
  let n := getInt c .S_SCRIPT_NOTIFY
  let c := if n = 0 then c else set (set c .S_SCRIPT_PRE_NOTIFY (.int n)) .S_SCRIPT_POST_NOTIFY (.int n)
  let c := prePost c .B_SCRIPT .B_SCRIPT_PRE .B_SCRIPT_POST
  let c := prePost c .R_SCRIPT .R_SCRIPT_PRE .R_SCRIPT_POST
  let c := prePost c .S_SCRIPT .S_SCRIPT_PRE .S_SCRIPT_POST
  let c := prePostArg c .B_SCRIPT_ARG .B_SCRIPT_PRE_ARG .B_SCRIPT_POST_ARG
  let c := prePostArg c .R_SCRIPT_ARG .R_SCRIPT_PRE_ARG .R_SCRIPT_POST_ARG
  let c := prePostArg c .S_SCRIPT_ARG .S_SCRIPT_PRE_ARG .S_SCRIPT_POST_ARG
  set (set c .S_SCRIPT (.str none)) .S_SCRIPT_ARG (.lst [])

/-- The part of `conf_finalise` after the options of the command line, `src/conffile.c:1188-1262`. The compilation
of regular expressions does not show in the settings. -/
def finish (env : Env) (c : Confs) : Option Confs :=
  let mode := getMode c
  let c := finFstypes env (finFstypes env c .EXCFS) .INCFS
  let c := setMaxExt (setMaxExt (setMaxExt c .INCEXT) .EXCEXT) .EXCOM
  let c := if mode = .client then finGlob env c else c
  (finIncexcDirs c).bind fun c =>
  (finStartDirs c).bind fun c =>
  (finKeep (finFschgDirs c)).bind fun c =>
  (if mode = .server then
    if getLst c .LISTEN = [] then none
    else (finMaxChildren c .LISTEN .MAX_CHILDREN).bind fun c => finMaxChildren c .LISTEN_STATUS .MAX_STATUS_CHILDREN
  else some c).bind fun c =>
  let c := if mode = .client then finPorts c else c
  some (finScripts c)

/-- `conf_finalise`, `src/conffile.c:1180-1263`. -/
def finalise (env : Env) (c : Confs) : Out :=
  (loadLines env c env.cli).bind fun c => match finish env c with
    | none => .error
    | some c => .ok c

/-- The loop of `conf_set_from_global`, `src/conffile.c:1438-1474`. -/
def inherit (g c : Confs) : Confs := fun o =>
  if o.info.flags.cc then match c o with
    | .lst l => .lst l
    | .cntr => .cntr
    | _ => g o
  else c o

/-- `conf_set_from_global`, `src/conffile.c:1435-1484`. -/
def setFromGlobal (g c : Confs) : Confs :=
  if (getStr g .SSL_PEER_CN).isNone then set (inherit g c) .SSL_PEER_CN (.str (getStr (inherit g c) .CNAME))
  else inherit g c

/-- `append_strlist`, `src/conffile.c:1486-1493`. -/
def appendLst (o : Opt) (dst src : List Elem) : List Elem := src.foldl (fun l e => addTo o l e) dst

/-- `conf_set_from_global_arg_list_overrides`, `src/conffile.c:1496-1525`. -/
def argLists (g c : Confs) : Confs := fun o =>
  match c o with
  | .lst l =>
    if !o.info.flags.cc then .lst l
    else if o.info.flags.replace then .lst (if l = [] then appendLst o [] (getLst g o) else l)
    else .lst (appendLst o (appendLst o [] (getLst g o)) l)
  | v => v

/-- `do_conf_load_overrides`, `src/conffile.c:1552-1564`, for the settings `c` that have been initialised, with the
lines of the file of the client. -/
def loadOverrides (env : Env) (g c : Confs) (lines : List Str) : Out :=
  (loadLines env (setFromGlobal g c) lines).bind fun c => finalise env (argLists g c)

/-- `conf_init_save_cname_and_version`, `src/conffile.c:1529-1550`. -/
def initNamed (cname version : Option Str) : Confs :=
  set (set init .CNAME (.str cname)) .PEER_VERSION (.str version)

/-- `conf_load_clientconfdir`, `src/conffile.c:1587-1607`, after the check of the name: the settings of a client. -/
def loadClient (env : Env) (g : Confs) (cname version : Option Str) (lines : List Str) : Out :=
  loadOverrides env g (initNamed cname version) lines

/-- `do_load_global_only`, `src/conffile.c:1609-1620`, without the checks at its end (1265-1294), from the lines of
the file. -/
def loadGlobal (env : Env) (path : Str) (lines : List Str) : Out :=
  (loadLines env (set init .CONFFILE (.str (some path))) lines).bind (finalise env)

/-- `conf_parse_incexcs_buf`, `src/conffile.c:1366-1373`. -/
def parseIncexcsBuf (env : Env) (c : Confs) (buf : Str) : Out :=
  (loadBuf env (freeIncexcs c) buf).bind (finalise env)

/-- `conf_parse_incexcs_path`, `src/conffile.c:1356-1363`. -/
def parseIncexcsPath (env : Env) (c : Confs) (lines : List Str) : Out :=
  (loadLines env (freeIncexcs c) lines).bind (finalise env)

end Verif.Confs
