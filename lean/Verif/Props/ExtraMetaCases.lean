import Verif.Props.ExtraMeta

/-!
# C81: cases, and where it fails
-/

namespace Verif
open Verif Verif.Iobuf Verif.ExtraMeta

namespace ExtraMeta

/-- A directory with two control lists and three attributes, one of which is a form of the control list. -/
def sampleDir : FileMeta :=
  ⟨some (bytes "user::rwx"), some (bytes "user::r-x"),
    some [⟨bytes "system.posix_acl_access", some [2, 0, 0, 0]⟩, ⟨bytes "user.a", some [1, 0, 2]⟩,
      ⟨bytes "user.empty", some []⟩]⟩

/-- A file with two attributes, the first of which cannot be set by everyone. -/
def sampleFile : FileMeta :=
  ⟨none, none, some [⟨bytes "security.selinux", some [7]⟩, ⟨bytes "user.a", some [1, 0, 2]⟩]⟩

theorem sampleDir_fits : Fits sampleDir := by
  refine ⟨?_, ?_, _, rfl, by decide +kernel, by decide +kernel⟩
  · intro t h; injection h with h; subst h; decide +kernel
  · intro t h; injection h with h; subst h; decide +kernel

theorem sampleFile_fits : Fits sampleFile := by
  refine ⟨?_, ?_, _, rfl, by decide +kernel, by decide +kernel⟩
  · intro t h; cases h
  · intro t h; cases h

/-- Only attributes of users may be set. -/
def onlyUser : Act → Bool
  | .xattr n _ => n.take 5 == bytes "user."
  | _ => true

/-- What is written about the file. -/
def sampleData : Str := bytes "X0000003A" ++ (bytes "00000010security.selinux00000001" ++ [7] ++
  bytes "00000006user.a00000003" ++ [1, 0, 2])

/-- What is written about the directory. -/
def sampleDirData : Str := bytes "A00000009user::rwxD00000009user::r-xX00000033" ++
  (bytes "00000006user.a00000003" ++ [1, 0, 2] ++ bytes "0000000Auser.empty00000000")

end ExtraMeta

/-- The hypotheses of `C81_kept`, `C81_all_set`, `C81_restored`, `C81_noticed` and `C81_cut` are met, and four
things are set. -/
example : Fits sampleDir ∧ ((sampleDir.xattrs.getD []).map (·.name)).Nodup ∧
    (getExtra both sampleDir true).isSome ∧
    wanted sampleDir true = [.acl false (bytes "user::rwx"), .acl true (bytes "user::r-x"),
      .xattr (bytes "user.a") [1, 0, 2], .xattr (bytes "user.empty") []] ∧
    (getExtra both sampleDir true).map (fun d => setExtra both (fun _ => true) d) =
      some (wanted sampleDir true, some 0) :=
  ⟨sampleDir_fits, by decide +kernel, by decide +kernel, by decide +kernel, by decide +kernel⟩

/-- The form of what is written. -/
example : getExtra both sampleFile false = some sampleData ∧ getExtra both sampleDir true = some sampleDirData := by
  decide +kernel

/-- Cut off in the second attribute: the whole record is left. -/
example : setExtra both (fun _ => true) (sampleData.take 60) = ([], none) := by decide +kernel

/-- The hypotheses of `C81_bsd_partial` are met. -/
example : setXattrBsd (fun _ => true) 100 (toappendBsd (bytes "user") (listLen [(bytes "a", [1]), (bytes "b", [1, 0, 2, 3])])
      [(bytes "a", [1]), (bytes "b", [1, 0, 2, 3])]) =
    ([.bsd (bytes "user") (bytes "a") [1], .bsd (bytes "user") (bytes "b") [1, 0, 2, 3]], true) := by decide +kernel

/-- C81 fails: with `acl=0` and `xattr=1` the access control list is saved and restored nevertheless, and with
`acl=1` and `xattr=0` so are the extended attributes. The settings only decide whether a file is asked at all
(`src/client/extrameta.c:12-37`); what is then written does not depend on them
(`src/client/extrameta.c:39-73`). -/
theorem C81_settings_violated :
    (hasExtra both false true sampleDir true = true ∧ hasExtra both true false sampleDir true = true) ∧
    ∃ data, getExtra both sampleDir true = some data ∧
      Act.acl false (bytes "user::rwx") ∈ (setExtra both (fun _ => true) data).1 ∧
      Act.xattr (bytes "user.a") [1, 0, 2] ∈ (setExtra both (fun _ => true) data).1 :=
  ⟨by decide +kernel, sampleDirData, by decide +kernel, by decide +kernel, by decide +kernel⟩

/-- C81 fails: an extended attribute that cannot be set, such as a label of SELinux without the right to do
so, stops those after it from being set, although they could be (`src/client/xattr.c:552-557`). -/
theorem C81_stop_violated : ∃ data, getExtra both sampleFile false = some data ∧
    Act.xattr (bytes "user.a") [1, 0, 2] ∈ wanted sampleFile false ∧
    onlyUser (.xattr (bytes "user.a") [1, 0, 2]) = true ∧
    setExtra both onlyUser data = ([], some 1) :=
  ⟨sampleData, by decide +kernel, by decide +kernel, by decide +kernel, by decide +kernel⟩

/-- C81 fails: a file without a control list gets one when it is restored. The metadata of a directory comes
before the files in it (`src/server/restore.c:358-385`), so its default control list is in force when they are
made, and nothing is sent for a file that had none (`src/client/backup_phase2.c:290-321`). -/
theorem C81_inherit_violated : ∃ data, getExtra both sampleDir true = some data ∧
    (getExtra both ⟨none, none, some []⟩ false = none) ∧
    (created (restoreMeta both (fun _ => true) data bare).default false).access = some (bytes "user::r-x") :=
  ⟨sampleDirData, by decide +kernel, by decide +kernel, by decide +kernel⟩

/-- C81 fails: a directory that is there already keeps attributes that the one in the backup did not have; also
a control list, if the one in the backup had none. Things are set, and never taken away
(`src/client/extrameta.c:75-180`). -/
theorem C81_dir_stale_violated : ∃ data, getExtra both sampleFile true = some data ∧
    (restoreMeta both (fun _ => true) data ⟨some (bytes "user::rwx"), none, fun _ => some [9]⟩).access =
      some (bytes "user::rwx") ∧
    valueOf sampleFile (bytes "user.new") = none ∧
    (restoreMeta both (fun _ => true) data ⟨some (bytes "user::rwx"), none, fun _ => some [9]⟩).xattrs
      (bytes "user.new") = some [9] :=
  ⟨sampleData, by decide +kernel, by decide +kernel, by decide +kernel, by decide +kernel⟩

/-- C81 fails: on FreeBSD the value of an extended attribute is cut off at the length of the list of names, and
no error is counted. The length of the value is asked for with the wrong function
(`src/client/xattr.c:213-228`). -/
theorem C81_bsd_violated :
    setXattrBsd (fun _ => true) 100 (toappendBsd (bytes "user") (listLen [(bytes "a", [1, 2, 3])]) [(bytes "a", [1, 2, 3])]) =
      ([.bsd (bytes "user") (bytes "a") [1, 2]], true) := by decide +kernel

end Verif
