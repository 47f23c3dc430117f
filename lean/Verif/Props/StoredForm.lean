import Verif.Lemmas.StoredForm

/-!
# C105: what the manifest says about compression and encryption is what is needed to read the file
-/

namespace Verif
open Verif.StoredForm Verif.Phase2 Verif.History

/-- C105: whatever settings for compression and encryption backups are made with, and whatever becomes of a file
between them, a restore of each backup gives what the file held then. Files that hard links point to have to be
unencrypted, and compressed just if it is configured. -/
theorem C105_restored_partial {D S : Type} (K : Codec) (hK : K.Sound) (L : Librsync Str D S) (hL : L.Sound)
    (pw : Option Str) (h : Hist) (hs : Steady pw h) (hh : Honest K L h) (hp : PlainLinks K L h) :
    ∃ l, line K L h = some l ∧
      ∀ k, k ≤ l.old.length → ∃ c, h.contents[k]? = some c ∧ restore K L pw l k = some c := by
  obtain ⟨l, hl, hg⟩ := line_good hK hL pw h hs hh hp
  refine ⟨l, hl, fun k hk => ?_⟩
  obtain ⟨h1, h2⟩ := restore_good hK hg k hk
  obtain ⟨c, hc⟩ := Option.isSome_iff_exists.1 h2
  exact ⟨c, hc, by rw [h1, hc]⟩

/-- C105: a backup of a file never has less than the one version, so the last backup can always be restored. -/
theorem C105_last_partial {D S : Type} (K : Codec) (hK : K.Sound) (L : Librsync Str D S) (hL : L.Sound)
    (pw : Option Str) (h : Hist) (hs : Steady pw h) (hh : Honest K L h) (hp : PlainLinks K L h) :
    ∃ l c, line K L h = some l ∧ h.contents.head? = some c ∧ restore K L pw l 0 = some c := by
  obtain ⟨l, hl, hr⟩ := C105_restored_partial K hK L hL pw h hs hh hp
  obtain ⟨c, h1, h2⟩ := hr 0 (Nat.zero_le _)
  refine ⟨l, c, hl, ?_, h2⟩
  rw [List.head?_eq_getElem?]
  exact h1

/-- C105: a file is never stored in clear when there is a password, whatever is done with it. -/
theorem C105_encrypted {D S : Type} (K : Codec) (L : Librsync Str D S) (l l' : Line D) (s : Scan) (p : Str)
    (hp : s.conf1.password = some p) (hp2 : s.conf2.password = some p) (hn : StoredForm.next K L l s = some l')
    (hch : l'.blob ≠ l.blob) :
    ∃ z, l'.blob = K.enc p l'.cur.encryption l'.cur.salt z ∧ l'.cur.cmd.isEncrypted = true := by
  have hcmd : (scanned s).cmd.isEncrypted = true := by
    show (symbol s.conf1 s.kind).isEncrypted = true
    rw [symbol_enc, hp]; rfl
  unfold StoredForm.next at hn
  split at hn
  · cases hn; exact absurd rfl hch
  · next hdec =>
    have := (delta_changed hdec).2.1
    rw [hcmd] at this
    cases this
  · cases hn
    have he : (answer s).cmd ≠ .efsFile := symbol_efs _ _
    refine ⟨if (answer s).compression ≠ 0 then K.gz (answer s).compression.toNat s.content else s.content,
      ?_, hcmd⟩
    show sendWhole K s.conf2 (answer s) s.content = _
    unfold sendWhole
    rw [if_pos ⟨Or.inr (by rw [hp2]; rfl), he⟩, hp2]
    rfl

/-! ## Examples -/

/-- Something like zlib and a cipher. -/
def toyCodec : Codec where
  gz _ s := 0x1f :: s
  gunzip s := match s with
    | 0x1f :: t => some t
    | _ => none
  gzread s := match s with
    | 0x1f :: t => t
    | s => s
  enc _ _ t s := UInt8.ofNat t :: s
  dec _ _ t s := match s with
    | [] => none
    | b :: u => if b = UInt8.ofNat t then some u else none

/-- Something like librsync: what is appended, or everything. -/
def toyRsync : Librsync Str Str Str where
  sig a := a
  delta a b := if a.isPrefixOf b then 1 :: b.drop a.length else 0 :: b
  patch a d := match d with
    | 1 :: t => some (a ++ t)
    | 0 :: t => some t
    | _ => none

theorem toyCodec_sound : toyCodec.Sound := by
  refine ⟨fun _ _ => rfl, fun _ _ => rfl, fun _ s => List.cons_ne_nil _ s, fun _ _ t s => ?_⟩
  show (if UInt8.ofNat t = UInt8.ofNat t then some s else none) = some s
  rw [if_pos rfl]

theorem toyRsync_sound : toyRsync.Sound := by
  intro a b
  show (match if a.isPrefixOf b then 1 :: b.drop a.length else 0 :: b with
    | 1 :: t => some (a ++ t)
    | 0 :: t => some t
    | _ => none) = some b
  by_cases h : a.isPrefixOf b = true
  · rw [if_pos h]
    obtain ⟨t, rfl⟩ := List.isPrefixOf_iff_prefix.1 h
    simp
  · rw [if_neg h]
    rfl

/-- A client that does not compress what is compressed already. -/
def plainConf : StoredForm.Conf := ⟨9, [bytes "gz"], none⟩

/-- The same client, with a password. -/
def secretConf : StoredForm.Conf := ⟨9, [bytes "gz"], some (bytes "secret")⟩

/-- A backup of a file. -/
def formScan (c1 c2 : StoredForm.Conf) (path : String) (time : Int) (salt : Nat) (alloc : String) (content : Str) :
    Scan where
  conf1 := c1
  conf2 := c2
  settings := ⟨true, 0, false⟩
  kind := .file
  path := bytes path
  stat1 := ⟨1, 2, time, time, 3⟩
  stat2 := ⟨1, 2, time, time, 3⟩
  salt := salt
  alloc := bytes alloc
  content := content

/-- A file that is changed, then not, then changed again. -/
def formHist : Hist :=
  .next (.next (.next (.first (formScan plainConf plainConf "/a" 1 0 "0000/0000/0000/0001.gz" [1]))
    (formScan plainConf plainConf "/a" 2 0 "" [1, 2])) (formScan plainConf plainConf "/a" 2 0 "" [1, 2]))
    (formScan ⟨5, [bytes "gz"], none⟩ plainConf "/a" 3 0 "" [1, 2, 3])

/-- It meets the hypotheses. -/
example : Steady (some (bytes "secret")) formHist ∧ Honest toyCodec toyRsync formHist ∧
    PlainLinks toyCodec toyRsync formHist := by
  refine ⟨?_, ⟨⟨⟨trivial, ?_⟩, ?_⟩, ?_⟩, trivial⟩
  · intro s hs
    simp only [formHist, Hist.scans, List.mem_cons, List.not_mem_nil, or_false] at hs
    unfold SameSettings
    rcases hs with rfl | rfl | rfl | rfl <;> decide +kernel
  · intro l hl ht
    have : (line toyCodec toyRsync
        (.first (formScan plainConf plainConf "/a" 1 0 "0000/0000/0000/0001.gz" [1]))).map (·.cur.mtime) =
        some 1 := by decide +kernel
    rw [hl] at this
    exact absurd (ht.symm.trans (Option.some.inj this)) (by decide)
  · intro l hl ht
    rfl
  · intro l hl ht
    have : (line toyCodec toyRsync
        (.next (.next (.first (formScan plainConf plainConf "/a" 1 0 "0000/0000/0000/0001.gz" [1]))
          (formScan plainConf plainConf "/a" 2 0 "" [1, 2]))
          (formScan plainConf plainConf "/a" 2 0 "" [1, 2]))).map (·.cur.mtime) = some 2 := by decide +kernel
    rw [hl] at this
    exact absurd (ht.symm.trans (Option.some.inj this)) (by decide)

/-- All four backups of it are restored from one stored file with two reverse deltas. -/
example : (line toyCodec toyRsync formHist).map (fun l => (l.blob, l.old.map Prod.fst,
      [0, 1, 2, 3].map (restore toyCodec toyRsync none l))) =
    some ([0x1f, 1, 2, 3], [some [0, 1, 2], none, some [0, 1]],
      [some [1, 2, 3], some [1, 2], some [1, 2], some [1]]) := by
  decide +kernel

/-- With a password, the file is sent again. -/
example : (line toyCodec toyRsync (.next formHist
      (formScan secretConf secretConf "/a" 3 77 "0000/0000/0000/0002.gz" [1, 2, 3]))).map
      (fun l => (l.blob, l.old.length, restore toyCodec toyRsync (some (bytes "secret")) l 0)) =
    some ([77, 0x1f, 1, 2, 3], 0, some [1, 2, 3]) := by
  decide +kernel

/-! ## Violations -/

/-- A file, a hard link to it, and then only the latter, which is now a file. -/
def linkHist (c : StoredForm.Conf) (path link : String) (content : Str) : Hist :=
  .wasLink (.first (formScan c c path 1 77 "0000/0000/0000/0001" content)) c (bytes path) ⟨1, 2, 1, 1, 3⟩
    (formScan c c link 1 88 "0000/0000/0000/0002" content)

/-- It is honest, with steady settings. -/
theorem linkHist_ok (pw : Option Str) (c : StoredForm.Conf) (path link : String) (content : Str)
    (hc : c.password = none ∨ c.password = pw) : Steady pw (linkHist c path link content) ∧
    Honest toyCodec toyRsync (linkHist c path link content) := by
  refine ⟨?_, trivial, fun _ _ _ _ _ _ => rfl⟩
  intro s hs
  simp only [linkHist, Hist.scans, List.mem_cons, List.not_mem_nil, or_false] at hs
  rcases hs with rfl | rfl
  · exact ⟨rfl, hc, Iff.rfl⟩
  · exact ⟨rfl, hc, Iff.rfl⟩

/-- C105 fails: when a file is deleted and a hard link to it stays, the stored data are used for the link, but the
manifest says of them what it said of the hard link: that they are compressed, if it is configured. If the file was
not compressed because of `exclude_comp`, the restore of it fails. -/
theorem C105_hard_link_violated : ∃ (K : Codec) (L : Librsync Str Str Str) (h : Hist) (l : Line Str),
    K.Sound ∧ L.Sound ∧ Steady none h ∧ Honest K L h ∧ line K L h = some l ∧ restore K L none l 0 = none :=
  ⟨toyCodec, toyRsync, linkHist plainConf "/a.gz" "/b" [1, 2, 3], _, toyCodec_sound, toyRsync_sound,
    (linkHist_ok none _ _ _ _ (Or.inl rfl)).1, (linkHist_ok none _ _ _ _ (Or.inl rfl)).2, rfl, by decide +kernel⟩

/-- C105 fails: if, in the same way, the file that was not compressed is a compressed file, then what is restored
is the uncompressed content under its name, without an error. -/
theorem C105_uncompressed_violated : ∃ (K : Codec) (L : Librsync Str Str Str) (h : Hist) (l : Line Str) (c r : Str),
    K.Sound ∧ L.Sound ∧ Steady none h ∧ Honest K L h ∧ line K L h = some l ∧ h.contents.head? = some c ∧
    restore K L none l 0 = some r ∧ r ≠ c :=
  ⟨toyCodec, toyRsync, linkHist plainConf "/a.gz" "/b.gz" [0x1f, 2, 3], _, [0x1f, 2, 3], [2, 3], toyCodec_sound,
    toyRsync_sound, (linkHist_ok none _ _ _ _ (Or.inl rfl)).1, (linkHist_ok none _ _ _ _ (Or.inl rfl)).2, rfl, rfl,
    by decide +kernel, by decide⟩

/-- C105 fails: with encryption, every file has its own salt, and the hard link has none. When the data of a
deleted file are used for the link to it, they cannot be decrypted. -/
theorem C105_salt_violated : ∃ (K : Codec) (L : Librsync Str Str Str) (h : Hist) (l : Line Str) (p : Str),
    K.Sound ∧ L.Sound ∧ Steady (some p) h ∧ Honest K L h ∧ line K L h = some l ∧
    restore K L (some p) l 0 = none :=
  ⟨toyCodec, toyRsync, linkHist secretConf "/a" "/b" [1, 2, 3], _, bytes "secret", toyCodec_sound, toyRsync_sound,
    (linkHist_ok _ _ _ _ _ (Or.inr rfl)).1, (linkHist_ok _ _ _ _ _ (Or.inr rfl)).2, rfl, by decide +kernel⟩

/-- C105 fails: when a backup is interrupted, `encryption_password` is set and the backup is resumed, then files
are sent encrypted although the list of files from before says that they are not. The manifest has them as files
that are not encrypted, and they cannot be restored, with or without the password. -/
theorem C105_password_violated : ∃ (K : Codec) (L : Librsync Str Str Str) (s : Scan) (l : Line Str),
    K.Sound ∧ L.Sound ∧ s.conf1.password = none ∧ s.conf2.password ≠ none ∧ line K L (.first s) = some l ∧
    restore K L none l 0 = none ∧ restore K L s.conf2.password l 0 = none :=
  ⟨toyCodec, toyRsync, formScan plainConf secretConf "/a" 1 77 "0000/0000/0000/0001" [1, 2, 3], _, toyCodec_sound,
    toyRsync_sound, rfl, by decide +kernel, rfl, by decide +kernel, by decide +kernel⟩

/-- C105 fails: when a backup is interrupted, `compression` is changed to 0 and the backup is resumed, then the
deltas of changed files are applied to the compressed data, and something else is restored, or nothing. -/
theorem C105_compression_violated : ∃ (K : Codec) (L : Librsync Str Str Str) (h : Hist) (l : Line Str) (c r : Str),
    K.Sound ∧ L.Sound ∧ Honest K L h ∧ (∀ s ∈ h.scans, s.conf1.password = none ∧ s.conf2.password = none) ∧
    line K L h = some l ∧ h.contents.head? = some c ∧ restore K L none l 0 = some r ∧ r ≠ c := by
  refine ⟨toyCodec, toyRsync, .next (.first (formScan plainConf plainConf "/a" 1 0 "0000/0000/0000/0001" [1]))
    (formScan plainConf ⟨0, [], none⟩ "/a" 2 0 "" [1, 2]), _, [1, 2], [0x1f, 1, 2], toyCodec_sound, toyRsync_sound,
    ⟨trivial, ?_⟩, ?_, rfl, rfl, by decide +kernel, by decide⟩
  · intro l hl ht
    have : (line toyCodec toyRsync
        (.first (formScan plainConf plainConf "/a" 1 0 "0000/0000/0000/0001" [1]))).map (·.cur.mtime) =
        some 1 := by decide +kernel
    rw [hl] at this
    exact absurd (ht.symm.trans (Option.some.inj this)) (by decide)
  · intro s hs
    simp only [Hist.scans, List.mem_cons, List.not_mem_nil, or_false] at hs
    rcases hs with rfl | rfl <;> exact ⟨rfl, rfl⟩

end Verif
