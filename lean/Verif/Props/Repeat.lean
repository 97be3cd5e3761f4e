import Verif.Props.Rounds
import Verif.Props.Programs

/-! # C127: repeated runs of the programs -/

namespace PwDiff

/-! ## Bytes -/

/-- One round for two files that are not both text. -/
def ByteRound (p q : Profile) (context : Nat) (a b c : List UInt8) : Prop :=
  ∃ cs, diffClumps p b a context = .ok cs ∧ (byteApplyInto q cs b false).run = (.ok (), c)

theorem ByteRound.next (p q : Profile) {context : Nat} {a b : List UInt8} (h1 : 1 ≤ context) (hctx : context ≤ 255) (hne : b ≠ [])
    (hsz : 2 * b.length + a.length < wordSize) :
    ∃ changes c, changesOf p b a = .ok changes ∧ ByteRound p q context a b c ∧ c.length = a.length ∧
      ∀ i : Nat, (∀ j, LeftOut context changes j i → c[i]? = b[j]?) ∧ ((∀ j, ¬ LeftOut context changes j i) → c[i]? = a[i]?) := by
  obtain ⟨cs, h⟩ := diffClumps_total p b a context
  obtain ⟨hd, changes, hch, hd2⟩ := diffClumps_full hctx h
  refine ⟨changes, patchedFrom b 0 0 cs, hch, ⟨cs, h, ?_⟩, hd.retarget.2.1, patched_leftOut h hch hd2⟩
  rw [byte_to_source q hd hsz (fun c hc => (diffClumps_starts h1 h c hc).1 hne), WM.run_emit]

/-- A round of bytes changes nothing if the diff is empty. -/
theorem ByteRound.stuck {p q : Profile} {context : Nat} {a b : List UInt8} (h : diffClumps p b a context = .ok []) :
    ByteRound p q context a b b := ⟨[], h, C27_bytes q b false⟩

/-! ## Files -/

/-- One round for two files: as texts if both are (and their sizes are within the limits), as bytes otherwise. -/
inductive FileRound (p q : Profile) (context : Nat) : List UInt8 → List UInt8 → List UInt8 → Prop
  | text {s t u : Str} (hs : (splitInclusive s).length ≤ maxLines) (ht : (splitInclusive t).length ≤ maxLines)
      (h : Round p q context t s u) : FileRound p q context t.bytes s.bytes u.bytes
  | bytes {a b c : List UInt8} (hn : ¬ (IsUtf8 b ∧ IsUtf8 a)) (hb : b.length ≤ maxLines) (ha : a.length ≤ maxLines)
      (h : ByteRound p q context a b c) : FileRound p q context a b c

/-- So many rounds make `c` of `b`. -/
inductive FileRounds (p q : Profile) (context : Nat) (a : List UInt8) : Nat → List UInt8 → List UInt8 → Prop
  | none (b : List UInt8) : FileRounds p q context a 0 b b
  | more {n : Nat} {b c d : List UInt8} (h : FileRound p q context a b c) (hs : FileRounds p q context a n c d) :
      FileRounds p q context a (n + 1) b d

/-- The state in which the rounds end: the file is the other one, or all that is left are lines (bytes, if the files are not both
text) that the comparison steps over. -/
def Settled (a c : List UInt8) : Prop :=
  c = a ∨ (∃ s t : Str, c = s.bytes ∧ a = t.bytes ∧ ∃ n e k, Overlooked (splitInclusive s) (splitInclusive t) n e k) ∨
    (¬ (IsUtf8 c ∧ IsUtf8 a) ∧ ∃ n e k, Overlooked c a n e k)

theorem fileRounds_text {p q : Profile} {context : Nat} {t : Str} (hctx : context ≤ 255) (ht : (splitInclusive t).length ≤ maxLines)
    {n : Nat} {s u : Str} (h : Rounds p q context t n s u) (hs : (splitInclusive s).length ≤ maxLines) :
    FileRounds p q context t.bytes n s.bytes u.bytes := by
  induction h with
  | none => exact .none _
  | more h1 h2 ih =>
    obtain ⟨changes, -, hl, -⟩ := h1.lines hctx hs ht
    exact .more (.text hs ht h1) (ih (by omega))

theorem FileRounds.trans {p q : Profile} {context : Nat} {a : List UInt8} {n m : Nat} {b c d : List UInt8}
    (h : FileRounds p q context a n b c) (h' : FileRounds p q context a m c d) : FileRounds p q context a (n + m) b d := by
  induction h with
  | none => rwa [Nat.zero_add]
  | more h1 h2 ih =>
    rw [Nat.add_right_comm]
    exact .more h1 (ih h')

/-- For files as for texts: the rounds come to an end. -/
theorem C127_files (p q : Profile) (context : Nat) (a b : List UInt8) (h1 : 1 ≤ context) (hctx : context ≤ 255)
    (hb : b.length ≤ maxLines) (ha : a.length ≤ maxLines) (hne : b = [] → IsUtf8 a) :
    ∃ n c, n ≤ 2 ^ (a.length + 1) ∧ FileRounds p q context a n b c ∧ FileRound p q context a c c ∧ Settled a c := by
  have text : ∀ s t : Str, s.bytes.length ≤ maxLines → t.bytes.length ≤ maxLines →
      ∃ n c, n ≤ 2 ^ t.bytes.length ∧ FileRounds p q context t.bytes n s.bytes c ∧ FileRound p q context t.bytes c c ∧ Settled t.bytes c := by
    intro s t hs ht
    have ls := length_splitInclusive_le s
    have lt := length_splitInclusive_le t
    obtain ⟨n, u, g1, g2, g3⟩ := C127_end p q context s t hctx (by omega) (by omega)
    have hr := (g2 n (Nat.le_refl _) u).2 rfl
    refine ⟨n, u.bytes, Nat.le_trans g1 (Nat.pow_le_pow_right (by omega) lt),
      fileRounds_text hctx (by omega) hr (by omega), ?_, ?_⟩
    · have hul : (splitInclusive u).length ≤ maxLines := by
        rcases g3 with rfl | ⟨_, _, _, g⟩
        · omega
        · have := g.oldSize
          have := g.newSize
          omega
      exact .text hul (by omega) ((C127_exact p q context u t hctx hul (by omega)).2 g3)
    · rcases g3 with rfl | g3
      · exact .inl rfl
      · exact .inr (.inl ⟨u, t, rfl, rfl, g3⟩)
  have small : maxLines + maxLines + maxLines < wordSize := by decide
  have loop : ∀ (m : Nat) (b : List UInt8), b.length = a.length → 2 ^ a.length - score b a ≤ m →
      ∃ n c, n + score b a < 2 ^ a.length + 2 ^ a.length ∧ FileRounds p q context a n b c ∧ FileRound p q context a c c ∧ Settled a c := by
    intro m
    induction m with
    | zero =>
      intro b hl hm
      have := score_lt hl
      rw [hl] at this
      omega
    | succ m ih =>
      intro b hl hm
      have hlt := score_lt hl
      rw [hl] at hlt
      by_cases hu : IsUtf8 b ∧ IsUtf8 a
      · obtain ⟨⟨s, rfl⟩, ⟨t, rfl⟩⟩ := hu
        obtain ⟨n, c, g1, g2⟩ := text s t (by omega) (by omega)
        exact ⟨n, c, by omega, g2⟩
      · by_cases hd : diffClumps p b a context = .ok []
        · refine ⟨0, b, by omega, .none _, .bytes hu (by omega) ha (.stuck hd), ?_⟩
          exact ((C16_exact p b a context).1 hd).imp_right fun g => .inr ⟨hu, g⟩
        · have hbne : b ≠ [] := by
            rintro rfl
            rw [List.length_nil] at hl
            rw [List.length_eq_zero_iff.1 hl.symm] at hu
            exact hu ⟨⟨[], rfl⟩, ⟨[], rfl⟩⟩
          obtain ⟨changes, c, e1, e2, e3, e4⟩ := ByteRound.next p q h1 hctx hbne (a := a) (by omega)
          obtain ⟨k, k1, k2, k3⟩ := first_right e1 (fun hr => hd (clumpsOf_noReals p _ _ context e1 hr).2) hl e3 e4
          have := score_mono k hl e3 k1 k2 k3
          obtain ⟨n, d, g1, g2, g3⟩ := ih c e3 (by omega)
          exact ⟨n + 1, d, by omega, .more (.bytes hu (by omega) ha e2) g2, g3⟩
  by_cases hu : IsUtf8 b ∧ IsUtf8 a
  · obtain ⟨⟨s, rfl⟩, ⟨t, rfl⟩⟩ := hu
    obtain ⟨n, c, g1, g2⟩ := text s t hb ha
    refine ⟨n, c, ?_, g2⟩
    rw [Nat.pow_succ]
    omega
  · have hbne : b ≠ [] := by
      rintro rfl
      exact hu ⟨⟨[], rfl⟩, hne rfl⟩
    obtain ⟨changes, c, e1, e2, e3, e4⟩ := ByteRound.next p q h1 hctx hbne (a := a) (by omega)
    obtain ⟨n, d, g1, g2, g3⟩ := loop _ c e3 (Nat.le_refl _)
    refine ⟨n + 1, d, ?_, .more (.bytes hu hb ha e2) g2, g3⟩
    rw [Nat.pow_succ]
    omega

/-! ## Programs -/

/-- `pw_diff before after > patch; pw_patch patch; rm patch`. -/
def programRound (p q : Profile) (temp patch before after : Path) (context : Nat) (w : World) : World :=
  let w1 := ((pwDiff p before after context).run w).2.redirect patch
  let w2 := ((pwPatch q temp patch false).run w1).2
  { w2 with fs := w2.fs.set (w2.fs.entry patch) none }

/-- The same so many times. -/
def programRounds (p q : Profile) (temp patch before after : Path) (context : Nat) : Nat → World → World
  | 0, w => w
  | n + 1, w => programRounds p q temp patch before after context n (programRound p q temp patch before after context w)

theorem programRound_eq {p q : Profile} {temp patch before after : Path} {context : Nat} {w : World} {a b c : List UInt8}
    (hw : Fresh w patch temp) (hctx : context ≤ 255) (hub : IsUtf8 before) (hua : IsUtf8 after)
    (hb : w.fs.contentAt before = some ⟨b, false⟩) (ha : w.fs.contentAt after = some ⟨a, false⟩) (h : FileRound p q context a b c) :
    programRound p q temp patch before after context w = { w with fs := w.fs.set (w.fs.entry before) (some (.file c)) } := by
  have hsz : ∀ n, n ≤ maxLines → n < wordSize := by
    intro n h
    simp only [maxLines, wordSize] at *
    omega
  obtain ⟨d, hd, hr, hu, hc, h1⟩ : ∃ d : Diff, Diff.new p before after context w = (.ok (some d), w) ∧ d.InRange ∧
      (∀ path ∈ d.paths, IsUtf8 path) ∧ d.changed = some before ∧ PatchedContent q false d b c := by
    cases h with
    | text hs ht h =>
      obtain ⟨cs, hcs, st, hst⟩ := h
      exact ⟨_, diffNew_text hw.faults p context hb ha hcs, clumps_inRange hctx hcs (hsz _ hs) (hsz _ ht),
        (by intro path h; simp only [Diff.paths, List.mem_cons, List.not_mem_nil, or_false] at h; rcases h with rfl | rfl <;> assumption),
        rfl, _, st, rfl, hst⟩
    | bytes hn hb' ha' h =>
      obtain ⟨cs, hcs, hst⟩ := h
      exact ⟨_, diffNew_bytes hw.faults p context hb ha hn hcs, clumps_inRange hctx hcs (hsz _ hb') (hsz _ ha'),
        (by intro path h; simp only [Diff.paths, List.mem_cons, List.not_mem_nil, or_false] at h; rcases h with rfl | rfl <;> assumption),
        rfl, hst⟩
  obtain ⟨e1, held⟩ := session_diff p hw hd hr hu
  have hne : w.fs.entry before ≠ w.fs.entry patch := by
    intro e
    have := FS.entry_some_of_content hb
    rw [e, hw.patchFree] at this
    simp at this
  have e2 := C46_normal q temp patch before false (World.redirect { w with stdout := d.fileContent } patch) d (held _ (by simp [World.redirect]))
    hc hw.faults (by simp [World.redirect, hw.ne, hw.tempFree]) (FS.contentAt_set hb hw.patchFree _) h1
  simp only [World.redirect, FS.set_entry] at e2
  unfold programRound
  rw [e1]
  simp only [World.redirect, e2, FS.set_entry]
  rw [FS.set_comm _ (Ne.symm hne), FS.set_set, FS.set_same, show w.stdout = [] from hw.stdout]
  simp [Ne.symm hne, hw.patchFree]

/-- Repeated runs of `pw_diff` and `pw_patch` come to an end: from some number of rounds on the first file is always the same, and
`Settled`; nothing else is changed. -/
theorem C127_program (p q : Profile) (temp patch before after : Path) (context : Nat) (w : World) (a b : List UInt8)
    (hw : Fresh w patch temp) (h1 : 1 ≤ context) (hctx : context ≤ 255) (hub : IsUtf8 before) (hua : IsUtf8 after)
    (hb : w.fs.contentAt before = some ⟨b, false⟩) (ha : w.fs.node (w.fs.entry after) = some (.file a))
    (hba : w.fs.entry after ≠ w.fs.entry before) (hlb : b.length ≤ maxLines) (hla : a.length ≤ maxLines) (hne : b = [] → IsUtf8 a) :
    ∃ n c, n ≤ 2 ^ (a.length + 1) + 1 ∧ Settled a c ∧ ∀ m, n ≤ m →
      programRounds p q temp patch before after context m w = { w with fs := w.fs.set (w.fs.entry before) (some (.file c)) } := by
  obtain ⟨n, c, g1, g2, g3, g4⟩ := C127_files p q context a b h1 hctx hlb hla hne
  have hnp : w.fs.entry before ≠ w.fs.entry patch := by
    intro e
    have := FS.entry_some_of_content hb
    rw [e, hw.patchFree] at this
    simp at this
  have hnt : w.fs.entry before ≠ w.fs.entry temp := by
    intro e
    have := FS.entry_some_of_content hb
    rw [e, hw.tempFree] at this
    simp at this
  have fresh : ∀ x, Fresh { w with fs := w.fs.set (w.fs.entry before) (some (.file x)) } patch temp := by
    intro x
    exact ⟨hw.faults, hw.stdout, by simp [Ne.symm hnp, hw.patchFree], by simp [Ne.symm hnt, hw.tempFree], hw.ne⟩
  -- once the file is a regular one
  have run : ∀ {n x y}, FileRounds p q context a n x y →
      programRounds p q temp patch before after context n { w with fs := w.fs.set (w.fs.entry before) (some (.file x)) } =
        { w with fs := w.fs.set (w.fs.entry before) (some (.file y)) } := by
    intro n x y h
    induction h with
    | none => rfl
    | more h hs ih =>
      rw [programRounds, programRound_eq (fresh _) hctx hub hua (FS.contentAt_of_file (by simp))
        (FS.contentAt_of_file (c := a) (by simp [hba, ha])) h]
      simp only [FS.set_entry, FS.set_set]
      exact ih
  have more : ∀ r, FileRounds p q context a r c c := by
    intro r
    induction r with
    | zero => exact .none _
    | succ r ih => exact .more g3 ih
  refine ⟨n + 1, c, by omega, g4, ?_⟩
  intro m hm
  obtain ⟨r, rfl⟩ := Nat.exists_eq_add_of_le hm
  have hall := g2.trans (more (1 + r))
  rw [← Nat.add_assoc] at hall
  rw [Nat.add_right_comm] at hall ⊢
  cases hall with
  | more h hs =>
    rw [programRounds, programRound_eq hw hctx hub hua hb (FS.contentAt_of_file ha) h]
    exact run hs

/-- Without the last condition: an empty file that is compared with one that is not text stays empty in every round. -/
theorem C127_emptyFile (p q : Profile) (context : Nat) (a : List UInt8) (ha : ¬ IsUtf8 a) (n : Nat) (c : List UInt8)
    (h : FileRounds p q context a n [] c) : c = [] := by
  generalize hb : ([] : List UInt8) = b at h
  induction h with
  | none => rfl
  | more h hs ih =>
    subst hb
    generalize hb : ([] : List UInt8) = b at h
    cases h with
    | text => exact absurd ⟨_, rfl⟩ ha
    | bytes hn _ _ h =>
      subst hb
      obtain ⟨cs, h1, h2⟩ := h
      rw [C40_empty] at h2
      obtain rfl := (Prod.mk.inj h2).2
      exact ih rfl

example := C127_emptyFile .debug .release 3 [255] not_utf8_ff 5

example := C127_files .debug .release 3 [1, 2, 255] [1, 255, 255] (by decide) (by decide) (by decide) (by decide) (fun h => by cases h)

/-- Two files named `A` and `C`, the patch `P`, and the temporary file `T`. -/
example (s t : Str) (hs : s.bytes.length ≤ maxLines) (ht : t.bytes.length ≤ maxLines) :
    ∃ n c, n ≤ 2 ^ (t.bytes.length + 1) + 1 ∧ Settled t.bytes c ∧ ∀ m, n ≤ m →
      (programRounds .release .release [84] [80] [65] [67] 3 m ⟨FS.ofFiles [([65], s.bytes), ([67], t.bytes)], [], []⟩).fs.contentAt [65] =
        some ⟨c, false⟩ := by
  obtain ⟨e1, e2, e3, e3', e4, e5, e6, e6', e7, e8⟩ := FS.ofFiles_two s.bytes t.bytes
  generalize FS.ofFiles [([65], s.bytes), ([67], t.bytes)] = fs at *
  obtain ⟨n, c, h1, h2, h3⟩ := C127_program .release .release [84] [80] [65] [67] 3 ⟨fs, [], []⟩ t.bytes s.bytes
    ⟨rfl, rfl, by rw [e3', e6], by rw [e3, e6'], by rw [e3, e3']; decide⟩ (by decide) (by decide) ⟨['A'], by decide⟩ ⟨['C'], by decide⟩ e7
    (by rw [e2, e5]) (by rw [e1, e2]; decide) hs ht (fun _ => ⟨t, rfl⟩)
  refine ⟨n, c, h1, h2, fun m hm => ?_⟩
  rw [h3 m hm]
  exact FS.contentAt_of_file (by simp)

end PwDiff
