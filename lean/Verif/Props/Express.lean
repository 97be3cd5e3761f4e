import Verif.Props.Joined
import Verif.Props.Bytes
import Verif.Props.Programs
import Verif.Proofs.Recorded

/-! # C121: which changes a patch can express -/

namespace PwDiff

/-- The patch that replaces everything. -/
def wholeClump {T : Type} (old new : List T) : DiffClump T := ⟨(0, 0), ⟨0, old⟩, ⟨0, new⟩⟩

theorem wholeClump_apply {T : Type} [DecidableEq T] [Item T] [LawfulItem T] (p : Profile) (old new : List T)
    (hsz : 2 * old.length + new.length < sizeLimit) :
    (applyInto p [wholeClump old new] old false).run = (.ok { clean := 1 }, bytesOf new) := by
  rw [C57_refines p old _ (by
    simp only [List.mem_singleton, forall_eq]
    exact ⟨Nat.zero_le _, Nat.zero_le _, by simp only [wholeClump]; omega, by simp only [wholeClump]; omega⟩)
    (by simp only [weight, wholeClump]; omega)]
  have h : Patching p old 0 0 {} [wholeClump old new] _ _ := .apply (d := 0) (w := .cleanly) (ls := new) (cs := [])
    (.inl ⟨rfl, ⟨[], [], by simp [wholeClump], rfl⟩⟩) rfl
    (.finish (by simp [placeOf, coveredBy, WillApply.redn, wholeClump]))
  have e : ∀ n, bytesOf (cut old n n) = [] := fun n => by simp [cut, bytesOf]
  simpa [placeOf, coveredBy, WillApply.redn, wholeClump, Decision.count, e] using h

theorem wholeClump_applyBytes (p : Profile) (old new : List UInt8) (hne : old ≠ []) (hsz : 2 * old.length + new.length < wordSize) :
    (byteApplyInto p [wholeClump old new] old false).run = (.ok (), new) := by
  rw [C60_refines p old _ (by simp only [weight, wholeClump]; omega)]
  have h : BytePatching old 0 [wholeClump old new] _ _ := .apply (cs := [])
    ⟨by simpa [wholeClump] using List.length_pos_iff.2 hne, ⟨[], [], by simp [wholeClump], rfl⟩⟩
    (.finish (by simp [wholeClump]))
  simpa [wholeClump, cut] using h

/-- Every text can be turned into every other text, and back by the same patch: by one clump without context. -/
theorem C121_text (p q : Profile) (s t : Str) (hs : 2 * (splitInclusive s).length + 2 * (splitInclusive t).length < sizeLimit) :
    (applyInto p [wholeClump (splitInclusive s) (splitInclusive t)] (splitInclusive s) false).run = (.ok { clean := 1 }, t.bytes) ∧
    (applyInto q [wholeClump (splitInclusive s) (splitInclusive t)] (splitInclusive t) true).run = (.ok { clean := 1 }, s.bytes) := by
  have e : ∀ s : Str, bytesOf (splitInclusive s) = s.bytes := fun s =>
    (flatMap_bytes _).trans (by rw [flatten_splitInclusive])
  constructor
  · rw [wholeClump_apply p _ _ (by omega), e]
  · rw [(C32_reverse q _ _).1]
    exact (wholeClump_apply q _ (splitInclusive s) (by omega)).trans (by rw [e])

/-- The same for bytes, unless a file is empty. -/
theorem C121_bytes (p q : Profile) (old new : List UInt8) (hs : 2 * old.length + 2 * new.length < wordSize) :
    (old ≠ [] → (byteApplyInto p [wholeClump old new] old false).run = (.ok (), new)) ∧
    (new ≠ [] → (byteApplyInto q [wholeClump old new] new true).run = (.ok (), old)) := by
  constructor
  · exact fun h => wholeClump_applyBytes p _ _ h (by omega)
  · intro h
    rw [(C32_bytes q _ _).1]
    exact wholeClump_applyBytes q _ old h (by omega)

example := C121_text .debug .release "a\nb".toList "c\n".toList (by decide +kernel)
example : (byteApplyInto .debug [wholeClump [1, 2] [255]] [255] true).run = (.ok (), [1, 2]) :=
  (C121_bytes .debug .debug [1, 2] [255] (by decide)).2 (by decide)

/-- A text patch makes a text of a text. -/
theorem textChange_utf8 {p : Profile} {rev : Bool} {d : TextChangeDiff} {old new : List UInt8}
    (h : PatchedContent p rev (.textChange d) old new) : IsUtf8 old ∧ IsUtf8 new := by
  obtain ⟨s, st, hs, h⟩ := h
  obtain ⟨text, ht, -⟩ := C100_pieces _ _ _ _ _ _ h
  exact ⟨⟨s, hs⟩, ⟨_, ht.symm⟩⟩

/-- A byte patch leaves an empty file empty. -/
theorem byteChange_empty {p : Profile} {rev : Bool} {d : ByteChangeDiff} {new : List UInt8}
    (h : PatchedContent p rev (.byteChange d) [] new) : new = [] := by
  have h : (byteApplyInto p d.clumps [] rev).run = (.ok (), new) := h
  cases rev with
  | false =>
    rw [C40_empty] at h
    exact (Prod.mk.inj h).2.symm
  | true =>
    rw [(C32_bytes p _ _).1, C40_empty] at h
    exact (Prod.mk.inj h).2.symm

theorem isUtf8_nil : IsUtf8 [] := ⟨[], rfl⟩

/-- There is a patch that makes `new` of `old`, exactly if `old` is not empty or `new` is a text. -/
theorem C121_exact (p : Profile) (rev : Bool) (path : Path) (old new : List UInt8)
    (hs : 2 * old.length + 2 * new.length < sizeLimit) :
    (∃ d : Diff, d.changed = some path ∧ PatchedContent p rev d old new) ↔ old ≠ [] ∨ IsUtf8 new := by
  constructor
  · rintro ⟨d, -, h⟩
    cases d with
    | textChange d => exact .inr (textChange_utf8 h).2
    | byteChange d =>
      by_cases ho : old = []
      · subst ho
        rw [byteChange_empty h]
        exact .inr isUtf8_nil
      · exact .inl ho
    | textAdd | textRemove | byteAdd | byteRemove => cases h
  · have hw : 2 * old.length + 2 * new.length < wordSize := by simp only [sizeLimit, wordSize] at hs ⊢; omega
    intro h
    by_cases ho : old = []
    · obtain ⟨t, rfl⟩ : IsUtf8 new := h.resolve_left (fun k => k ho)
      subst ho
      have hl := length_splitInclusive_le t
      have e : splitInclusive [] = [] := rfl
      cases rev with
      | false =>
        exact ⟨.textChange ⟨path, path, [wholeClump (splitInclusive []) (splitInclusive t)]⟩, rfl, [], _, rfl,
          (C121_text p p [] t (by rw [e]; simp only [List.length_nil] at hs ⊢; omega)).1⟩
      | true =>
        exact ⟨.textChange ⟨path, path, [wholeClump (splitInclusive t) (splitInclusive [])]⟩, rfl, [], _, rfl,
          (C121_text p p t [] (by rw [e]; simp only [List.length_nil] at hs ⊢; omega)).2⟩
    · cases rev with
      | false => exact ⟨.byteChange ⟨path, path, false, [wholeClump old new]⟩, rfl, (C121_bytes p p old new hw).1 ho⟩
      | true => exact ⟨.byteChange ⟨path, path, false, [wholeClump new old]⟩, rfl, (C121_bytes p p new old (by omega)).2 ho⟩

/-- There is a patch that makes `new` of `old` and, in reverse, `old` of `new`, exactly if both or none are empty or both are texts. -/
theorem C121_both (p q : Profile) (path : Path) (old new : List UInt8) (hs : 2 * old.length + 2 * new.length < sizeLimit) :
    (∃ d : Diff, d.changed = some path ∧ PatchedContent p false d old new ∧ PatchedContent q true d new old) ↔
      (old = [] ↔ new = []) ∨ (IsUtf8 old ∧ IsUtf8 new) := by
  have hw : 2 * old.length + 2 * new.length < wordSize := by simp only [sizeLimit, wordSize] at hs ⊢; omega
  constructor
  · rintro ⟨d, -, h, h'⟩
    cases d with
    | textChange d => exact .inr (textChange_utf8 h)
    | byteChange d =>
      left
      constructor
      · rintro rfl
        exact byteChange_empty h
      · rintro rfl
        exact byteChange_empty h'
    | textAdd | textRemove | byteAdd | byteRemove => cases h
  · have text : IsUtf8 old → IsUtf8 new →
        ∃ d : Diff, d.changed = some path ∧ PatchedContent p false d old new ∧ PatchedContent q true d new old := by
      rintro ⟨s, rfl⟩ ⟨t, rfl⟩
      have h1 := length_splitInclusive_le s
      have h2 := length_splitInclusive_le t
      have h3 := C121_text p q s t (by omega)
      exact ⟨.textChange ⟨path, path, [wholeClump (splitInclusive s) (splitInclusive t)]⟩, rfl, ⟨s, _, rfl, h3.1⟩, ⟨t, _, rfl, h3.2⟩⟩
    rintro (h | ⟨h1, h2⟩)
    · by_cases ho : old = []
      · subst ho
        rw [h.1 rfl]
        rw [h.1 rfl] at text
        exact text isUtf8_nil isUtf8_nil
      · have hn : new ≠ [] := fun hn => ho (h.2 hn)
        have h3 := C121_bytes p q old new hw
        exact ⟨.byteChange ⟨path, path, false, [wholeClump old new]⟩, rfl, h3.1 ho, h3.2 hn⟩
    · exact text h1 h2

/-- For the program: whatever the file (not empty) and the wanted content, there is a patch file with which `pw_patch` makes just this
content of the file and leaves everything else alone. -/
theorem C121_program (p : Profile) (temp patch target : Path) (w : World) (hf : w.faults = []) (hu : IsUtf8 target)
    {old new : List UInt8} (hold : w.fs.node (w.fs.entry target) = some (.file old)) (hne : old ≠ [])
    (hs : 2 * old.length + 2 * new.length < sizeLimit) (hfree : w.fs.node (w.fs.entry temp) = none)
    (h1 : w.fs.entry patch ≠ w.fs.entry target) (h2 : w.fs.entry patch ≠ w.fs.entry temp) :
    ∃ content, let w1 := { w with fs := w.fs.set (w.fs.entry patch) (some (.file content)) }
      (pwPatch p temp patch false).run w1 =
        (.exited 0, { w1 with fs := w1.fs.set (w.fs.entry target) (some (.file new)) }) := by
  have hw : 2 * old.length + 2 * new.length < wordSize := by simp only [sizeLimit, wordSize] at hs ⊢; omega
  let d : Diff := .byteChange ⟨target, target, false, [wholeClump old new]⟩
  have hd : PatchedContent p false d old new := (C121_bytes p p old new hw).1 hne
  obtain ⟨out, -, hr⟩ := C45_roundTrip d (by
    intro c hc
    obtain rfl := List.mem_singleton.1 hc
    simp [wholeClump, DiffClump.InRange, wordSize]) (by
    intro path hp
    obtain rfl : path = target := by simpa [d, Diff.paths] using hp
    exact hu)
  refine ⟨out, ?_⟩
  refine C46_normal p temp patch target false { w with fs := w.fs.set (w.fs.entry patch) (some (.file out)) } d ⟨⟨out, false⟩, ?_, hr⟩ rfl hf ?_ ?_ hd
  · exact FS.contentAt_of_file (by simp)
  · simpa [FS.set_node, Ne.symm h2] using hfree
  · exact FS.contentAt_of_file (by simp [Ne.symm h1, hold])

/-- An empty file cannot be filled with something that is not a text, except by removing it first. -/
example : ¬ ∃ d : Diff, d.changed = some [65] ∧ PatchedContent .release false d [] [255] := by
  rw [C121_exact _ _ _ _ _ (by decide)]
  exact fun h => h.elim (fun h => h rfl) not_utf8_ff
/-- A file of bytes can be emptied, but not by a patch that can be reverted. -/
example : (∃ d : Diff, d.changed = some [65] ∧ PatchedContent .release false d [255] []) ∧
    ¬ ∃ d : Diff, d.changed = some [65] ∧ PatchedContent .release false d [255] [] ∧ PatchedContent .release true d [] [255] := by
  rw [C121_exact _ _ _ _ _ (by decide), C121_both _ _ _ _ _ (by decide)]
  exact ⟨.inl (by decide), fun h => h.elim (by simp) fun h => not_utf8_ff h.1⟩
example : (applyInto .debug [wholeClump (splitInclusive "a\nb".toList) (splitInclusive "c\n".toList)] (splitInclusive "a\nb".toList) false).run =
    (.ok { clean := 1 }, Str.bytes "c\n".toList) := by decide +kernel
example : (byteApplyInto .debug [wholeClump [1, 2] [255]] [255] true).run = (.ok (), [1, 2]) := by decide +kernel
/-- The situation of `C121_program`. -/
example : let w : World := ⟨FS.ofFiles [([65], [1, 2])], [], []⟩
    w.faults = [] ∧ IsUtf8 [65] ∧ w.fs.node (w.fs.entry [65]) = some (.file [1, 2]) ∧ w.fs.node (w.fs.entry [84]) = none ∧
      w.fs.entry [67] ≠ w.fs.entry [65] ∧ w.fs.entry [67] ≠ w.fs.entry [84] :=
  ⟨rfl, ⟨['A'], by decide +kernel⟩, rfl, rfl, by decide +kernel, by decide +kernel⟩

end PwDiff
