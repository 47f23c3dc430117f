import Verif.Props.Fzp

/-!
# C92: cases, and where it fails
-/

namespace Verif.FzpCases
open Verif Fzp

/-- Small buffers, and some calls that fail. -/
def world (fails : List Nat) : World := ⟨fun n => fails.contains n, fun _ => 1, 2, bytes "77"⟩

def log : Str := bytes "log"
def logGz : Str := bytes "log.gz"

def start (f : File) : S := { dir := fun n => if n = log then some f else none }

/-- The theorems apply: the log is compressed. -/
example : (compressFile (world []) (start ⟨bytes "hello", false, .eof⟩) log logGz).1 = true ∧
    (compressFile (world []) (start ⟨bytes "hello", false, .eof⟩) log logGz).2.dir logGz = some (whole (bytes "hello")) ∧
    log ≠ logGz ∧ log ≠ logGz ++ (world []).pid := by decide +kernel

/-- A write that fails, and renaming that fails: the log is still there. -/
example : (compressFile (world [3]) (start ⟨bytes "hello", false, .eof⟩) log logGz).1 = false ∧
    (compressFile (world [6]) (start ⟨bytes "hello", false, .eof⟩) log logGz).1 = false ∧
    (compressFile (world [6]) (start ⟨bytes "hello", false, .eof⟩) log logGz).2.dir log =
      some ⟨bytes "hello", false, .eof⟩ := by decide +kernel

/-- It is inflated, and cut. -/
example : (inflate (world []) (start (whole (bytes "hello"))) log (bytes "x")).1 = .ok ∧
    (gztruncate (world []) (start (whole (bytes "hello"))) log 3).1 = .ok ∧
    (gztruncate (world []) (start (whole (bytes "hello"))) log 3).2.dir log = some (whole (bytes "hel")) := by decide +kernel

/-- What is left while it is cut: the file is there after every call. -/
example : ∀ d ∈ (gztruncate (world []) (start (whole (bytes "hello"))) log 3).2.hist,
    d log = some (whole (bytes "hello")) ∨ d log = some (whole (bytes "hel")) := by decide +kernel

example : ensure false .eof 3 2 (bytes "abc") [] = some (.whole (bytes "ab")) ∧
    ensure false .eof 3 2 [] [] = some .ended ∧ ensure true .broken 3 2 (bytes "a") [] = some .failed := by decide +kernel

example : grow 9 128 1000 = some 1024 := by decide

end Verif.FzpCases

namespace Verif
open Fzp FzpCases

/-- C92 fails: when reading a file fails, `bcompress` takes that for its end (src/server/compress.c:30), so
what had been read before is compressed, success is reported and the file is removed: the rest of it is lost. -/
theorem C92_compress_violated :
    (compressFile (world []) (start ⟨bytes "hello", false, .broken⟩) log logGz).1 = true ∧
    (compressFile (world []) (start ⟨bytes "hello", false, .broken⟩) log logGz).2.dir log = none := by decide +kernel

/-- C92 fails: when reading a compressed file fails, for example because it is damaged, `zlib_inflate` takes -1 for
the number of bytes to be written, since its count has no sign (src/server/zlibio.c:12, 31): it writes what is
behind its buffer. The check after the loop (src/server/zlibio.c:40) is never reached for that. -/
theorem C92_inflate_violated (w : World) (hw : ∀ n, w.fails n = false) (src dst : Str) (s : S) (f : File)
    (hf : s.dir src = some f) (ht : f.tail = .broken) : (inflate w s src dst).1 = .undefined := by
  have loop : ∀ (k : Nat) (rest : Str) (s : S), rest.length < k → 0 < w.chunk ∨ rest = [] →
      (inflateLoop w dst .broken k rest s).1 = .undefined := by
    intro k
    induction k with
    | zero => intro rest s h _; omega
    | succ k ih =>
      intro rest s h hc
      unfold inflateLoop
      cases hr : Fzp.read true w.chunk rest .broken with
      | minus => rfl
      | zero =>
        unfold Fzp.read at hr
        split at hr
        · cases hr
        · rw [if_pos ⟨rfl, rfl⟩] at hr; cases hr
      | bytes b =>
        obtain ⟨rfl, hne⟩ := read_bytes hr
        dsimp only
        have : write w s dst (rest.take w.chunk) = (true, step s (append s.dir dst (rest.take w.chunk))) := by
          unfold write; rw [if_neg (by rw [hw]; exact fun c => by cases c)]
        rw [this]
        have hrn : rest ≠ [] := fun c => hne (by rw [c]; exact List.take_nil)
        have := List.length_pos_iff.mpr hrn
        have hc0 := hc.resolve_right hrn
        refine ih _ _ ?_ (.inl hc0)
        rw [List.length_drop]; omega
  have loop0 : ∀ (k : Nat) (rest : Str) (s : S), w.chunk = 0 → (inflateLoop w dst .broken (k + 1) rest s).1 = .undefined := by
    intro k rest s h
    unfold inflateLoop
    have : Fzp.read true w.chunk rest .broken = .minus := by
      unfold Fzp.read
      rw [h, List.take_zero, if_neg (fun c : ([] : Str) ≠ [] => c rfl), if_pos ⟨rfl, rfl⟩]
    rw [this]
  unfold inflate
  rw [openR_works hw, hf]
  dsimp only
  have h1 := openW_works hw (step s s.dir) dst false
  generalize openW w (step s s.dir) dst false = o at *
  obtain ⟨r, s1⟩ := o
  dsimp only at h1; subst h1
  dsimp only
  rw [ht]
  have h2 : (inflateLoop w dst .broken (f.data.length + 1) f.data s1).1 = .undefined := by
    by_cases hc : 0 < w.chunk
    · exact loop _ _ _ (Nat.lt_succ_self _) (.inl hc)
    · exact loop0 _ _ _ (by omega)
  generalize inflateLoop w dst .broken (f.data.length + 1) f.data s1 = o at *
  obtain ⟨r, s2⟩ := o
  dsimp only at h2; subst h2
  rfl

/-- C92 fails: a compressed file whose end is missing, as after a crash, is taken for a whole one: `gzread` gives
what there is, then 0, and `gzeof` holds (src/server/zlibio.c:31-46). The previous version of a file that was
patched from it is then wrong, and nothing says so. -/
theorem C92_cut_short_violated :
    (inflate (world []) (start ⟨bytes "hel", true, .cut⟩) log (bytes "x")).1 = .ok := by decide +kernel

/-- C92 fails: where `fread` fails, `fzp_read_ensure` tries again for ever, since it is not the end of the file
(src/fzp.c:513). -/
theorem C92_read_hangs_violated (n : Nat) (rest : Str) (h : rest.length < n) (k : Nat) :
    ensure false .broken k n rest [] = none := by
  have key : ∀ (k : Nat) (rest got : Str), got.length + rest.length < n → ensure false .broken k n rest got = none := by
    intro k
    induction k with
    | zero => intro _ _ _; rfl
    | succ k ih =>
      intro rest got hl
      rw [ensure, if_neg (show ¬ got.length = n by omega)]
      by_cases hr : rest = []
      · subst hr
        have : Fzp.read false (n - got.length) [] .broken = .zero := by
          unfold Fzp.read
          rw [List.take_nil, if_neg (fun c : ([] : Str) ≠ [] => c rfl), if_neg (fun c => by cases c.1)]
        rw [this]
        exact ih [] got hl
      · have htk : rest.take (n - got.length) = rest := List.take_of_length_le (by omega)
        have : Fzp.read false (n - got.length) rest .broken = .bytes rest := by
          unfold Fzp.read
          rw [htk, if_pos hr]
        rw [this]
        have hd : rest.drop (n - got.length) = [] := List.drop_eq_nil_of_le (by omega)
        show ensure false .broken k n (rest.drop (n - got.length)) (got ++ rest) = none
        rw [hd]
        exact ih [] _ (by rw [List.length_append, List.length_nil]; omega)
  exact key k rest [] (by rw [List.length_nil]; omega)

end Verif
