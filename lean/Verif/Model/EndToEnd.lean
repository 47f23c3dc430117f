import Verif.Model.Phase1
import Verif.Model.Session

/-!
# From the list of the first phase to the second

`process_next_file_from_manios`, `src/server/backup_phase2.c:990-1004`, reads the list that `src/server/backup_phase1.c` has written, with
`manio_read`, `src/server/manio.c:207-215`, that is `sbuf_fill`. What is decided on are the numbers that
`attribs_decode` gets from the attribute records.
-/

namespace Verif.EndToEnd
open Verif.Attribs Verif.Phase2

/-- The numbers of a `struct sbuf` that has been emptied, `sbuf_free_content`, `src/sbuf.c:30-51`. -/
def blank : Attr := ⟨0, 0, 0, 0, 0, 0, 0, 0, 0, 0, 0, 0, 0, 0, -1, 0, 0, 1⟩

/-- The `struct sbuf` that is read, with the numbers that `parse_cmd`, `src/sbuf.c:141-147`, has got from its
attributes. -/
def entOf (sb : Sbuf.Sbuf) : Option Ent :=
  match sb.path, sb.attr.bind (decode blank) with
  | some p, some a => (Cmd.ofByte p.cmd).map (fun cmd =>
      { cmd := cmd
        path := some p.buf
        link := sb.link.map Iobuf.Rec.buf
        datapth := sb.datapth
        dev := a.dev.toNat
        ino := a.ino.toNat
        mtime := a.mtime
        ctime := a.ctime
        size := a.size
        compression := a.compression
        encryption := a.encryption.toNat
        salt := a.salt.toNat
        endfile := sb.endfile })
  | _, _ => none

/-- What the second phase reads from the list, `src/server/backup_phase2.c:990-1004`. -/
def scanned (f : Str) : List Ent := (Sbuf.readEntries f).1.filterMap entOf

end Verif.EndToEnd
