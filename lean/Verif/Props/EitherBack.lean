import Verif.Props.Either

/-! # C146: of two patches that were applied, one is taken back, or both are in either order -/

namespace PwDiff

section

variable {T : Type} [DecidableEq T] [Item T] [LawfulItem T]

/-- Of two patches, made from whatever files, one is taken back from a file in which the new lines of its clumps are, and the old or the
new lines of the clumps of the other one, in any order. If the former fit nowhere else all of them are replaced by the old lines if and
only if each one further down than expected stands before the limit of the search. -/
theorem C146_exact (p q : Profile) (before after : List T) (context : Nat) (hctx : context ≤ 255) (which other : Bool)
    (parts : List (Owned T)) (last : List T) (h : diffClumps p before after context = .ok (ownClumps which parts))
    (hsz : before.length + after.length + (seenBy which true other parts last).length ≤ maxLines)
    (hu : OnlyThere DiffClump.after (seenBy which true other parts last) 0 (forPatch which other [] parts)) :
    (applyInto q (ownClumps which parts) (seenBy which true other parts last) true).run =
      (.ok { fuzzy := shifts DiffClump.after 0 0 (forPatch which other [] parts),
             clean := (ownClumps which parts).length - shifts DiffClump.after 0 0 (forPatch which other [] parts) },
        bytesOf (seenBy which false other parts last)) ↔
      WithinSearch DiffClump.after (seenBy which true other parts last) 0 0 (forPatch which other [] parts) := by
  obtain ⟨e1, e2, e3⟩ := forPatch_spec which other [] parts last
  rw [List.nil_append] at e2 e3
  have := C137_reverse p q before after context hctx (forPatch which other [] parts) (afterPatch which other [] parts last)
    (by rw [e1]; exact h) (by rw [e3]; exact hsz) (by rw [e3]; exact hu)
  rw [e1, e2, e3, show (forPatch which other [] parts).length = (ownClumps which parts).length by rw [← e1, List.length_map]] at this
  exact this

/-- Every clump of one of the patches has added a line that is in the file only once, and stands before the limit of the search if it is
further down than expected. -/
def LocatableBack (which other : Bool) (parts : List (Owned T)) (last : List T) : Prop :=
  (∀ c ∈ ownClumps which parts, ChangesUnique (seenBy which true other parts last) c.swap) ∧
    WithinSearch DiffClump.after (seenBy which true other parts last) 0 0 (forPatch which other [] parts)

omit [Item T] [LawfulItem T] in
theorem onlyThere_locatableBack {which other : Bool} {parts : List (Owned T)} {last : List T}
    (h : ∀ c ∈ ownClumps which parts, ChangesUnique (seenBy which true other parts last) c.swap) :
    OnlyThere DiffClump.after (seenBy which true other parts last) 0 (forPatch which other [] parts) := by
  obtain ⟨e1, -, e3⟩ := forPatch_spec which other [] parts last
  obtain ⟨-, f2, -, -, f5, -⟩ := swap_parts (seenBy which true other parts last) (forPatch which other [] parts)
    (afterPatch which other [] parts last) 0 0
  refine f5.1 (onlyThere_of_once (last := afterPatch which other [] parts last) (front := []) (by rw [f2, e3]; rfl) rfl fun x hx => ?_)
  obtain ⟨y, hy, rfl⟩ := List.mem_map.1 hx
  refine h _ ?_
  rw [← e1]
  exact List.mem_map_of_mem hy

/-- Two patches, made from whatever files, whose new lines are all in a file, in any order: if each patch is recognised there
(`LocatableBack`) before and after the other one is taken back, either one can be taken back, which leaves just the other one applied, and
then the other one, so that in either order the same file comes out, with the old lines of both. -/
theorem C146_either (p p' q : Profile) (before after before' after' : List T) (context context' : Nat) (hctx : context ≤ 255)
    (hctx' : context' ≤ 255) (parts : List (Owned T)) (last : List T)
    (h : diffClumps p before after context = .ok (ownClumps true parts))
    (h' : diffClumps p' before' after' context' = .ok (ownClumps false parts))
    (hsz : ∀ one two, before.length + after.length + before'.length + after'.length + (withPatches one two parts last).length ≤ maxLines)
    (hp : ∀ which other, LocatableBack which other parts last) :
    ∃ s1 s2 s3 s4 : Statistics,
      (applyInto q (ownClumps true parts) (withPatches true true parts last) true).run = (.ok s1, bytesOf (withPatches false true parts last)) ∧
      (applyInto q (ownClumps false parts) (withPatches false true parts last) true).run = (.ok s2, bytesOf (withPatches false false parts last)) ∧
      (applyInto q (ownClumps false parts) (withPatches true true parts last) true).run = (.ok s3, bytesOf (withPatches true false parts last)) ∧
      (applyInto q (ownClumps true parts) (withPatches true false parts last) true).run = (.ok s4, bytesOf (withPatches false false parts last)) ∧
      ∀ s ∈ [s1, s2, s3, s4], s.failed = 0 ∧ s.alreadyApplied = 0 ∧ s.alreadyAppliedFuzzy = 0 := by
  have run : ∀ (p : Profile) (before after : List T) (context : Nat), context ≤ 255 → ∀ which other,
      diffClumps p before after context = .ok (ownClumps which parts) →
      before.length + after.length + (seenBy which true other parts last).length ≤ maxLines →
      (applyInto q (ownClumps which parts) (seenBy which true other parts last) true).run =
      (.ok { fuzzy := shifts DiffClump.after 0 0 (forPatch which other [] parts),
             clean := (ownClumps which parts).length - shifts DiffClump.after 0 0 (forPatch which other [] parts) },
        bytesOf (seenBy which false other parts last)) := fun p before after context hctx which other h hsz =>
    (C146_exact p q before after context hctx which other parts last h hsz (onlyThere_locatableBack (hp which other).1)).2 (hp which other).2
  have z1 := hsz true true
  have z2 := hsz true false
  have z3 := hsz false true
  refine ⟨_, _, _, _, run p before after context hctx true true h (by simp only [seenBy, if_true]; omega),
    run p' before' after' context' hctx' false false h' (by simp only [seenBy, Bool.false_eq_true, if_false]; omega),
    run p' before' after' context' hctx' false true h' (by simp only [seenBy, Bool.false_eq_true, if_false]; omega),
    run p before after context hctx true false h (by simp only [seenBy, if_true]; omega), ?_⟩
  simp

end

/-- C145 and C146 for `pw_patch`: one patch is applied, then the other, then the first is taken back, which leaves what the second alone
would have left, and then the second, which leaves everything as it was. All runs end with exit status 0. -/
theorem C146_program (p p' q : Profile) (temp one two target : Path) (w : World) (hf : w.faults = []) (d d' : TextChangeDiff)
    (content content' : List UInt8) (hp1 : w.fs.node (w.fs.entry one) = some (.file content))
    (hp2 : w.fs.node (w.fs.entry two) = some (.file content')) (hc1 : Diff.fromReader ⟨content, false⟩ = .ok (.textChange d))
    (hc2 : Diff.fromReader ⟨content', false⟩ = .ok (.textChange d')) (ht1 : d.beforePath = target) (ht2 : d'.beforePath = target)
    (hfree : w.fs.node (w.fs.entry temp) = none) (hne1 : w.fs.entry one ≠ w.fs.entry target) (hne2 : w.fs.entry two ≠ w.fs.entry target)
    (before after before' after' : List Str) (context context' : Nat) (hctx : context ≤ 255) (hctx' : context' ≤ 255)
    (parts : List (Owned Str)) (t : Str) (hw : AllWhole parts) (hd1 : d.clumps = ownClumps true parts)
    (hd2 : d'.clumps = ownClumps false parts) (h : diffClumps p before after context = .ok d.clumps)
    (h' : diffClumps p' before' after' context' = .ok d'.clumps)
    (hold : w.fs.node (w.fs.entry target) = some (.file (bytesOf (withPatches false false parts (splitInclusive t)))))
    (hsz : ∀ one two, before.length + after.length + before'.length + after'.length +
      (withPatches one two parts (splitInclusive t)).length ≤ maxLines)
    (hp : ∀ which other, Locatable which other parts (splitInclusive t))
    (hb : ∀ which other, LocatableBack which other parts (splitInclusive t)) :
    ∃ w1 w2 w3, (pwPatch q temp one false).run w = (.exited 0, w1) ∧ (pwPatch q temp two false).run w1 = (.exited 0, w2) ∧
      (pwPatch q temp one true).run w2 = (.exited 0, w3) ∧ (pwPatch q temp two false).run w = (.exited 0, w3) ∧
      (pwPatch q temp two true).run w3 = (.exited 0, w) := by
  obtain ⟨r1, r2, r3, -⟩ := C145_program p p' q temp one two target w hf d d' content content' hp1 hp2 hc1 hc2 ht1 ht2 hfree hne1 hne2
    before after before' after' context context' hctx hctx' parts t hw hd1 hd2 h h' hold hsz hp
  obtain ⟨s1, s2, -, -, b1, b2, -⟩ := C146_either p p' q before after before' after' context context' hctx hctx' parts
    (splitInclusive t) (hd1 ▸ h) (hd2 ▸ h') hsz hb
  have hs := fun one two => split_withPatches one two parts t hw
  have eu : ∀ one two, bytesOf (withPatches one two parts (splitInclusive t)) =
      Str.bytes (withPatches one two parts (splitInclusive t)).flatten := fun one two => by
    rw [← bytesOf_splitInclusive, hs]
  rw [← hs true true, ← hd1] at b1
  rw [← hs false true, ← hd2] at b2
  have hnt : w.fs.entry temp ≠ w.fs.entry target := by
    intro e
    rw [e, hold] at hfree
    cases hfree
  have later : ∀ (patch : Path) (d : TextChangeDiff) (content : List UInt8) (a b : Bool) (st : Statistics) (new : List UInt8),
      w.fs.node (w.fs.entry patch) = some (.file content) → Diff.fromReader ⟨content, false⟩ = .ok (.textChange d) → d.beforePath = target →
      w.fs.entry patch ≠ w.fs.entry target →
      (applyInto q d.clumps (splitInclusive (withPatches a b parts (splitInclusive t)).flatten) true).run = (.ok st, new) →
      (pwPatch q temp patch true).run
        { w with fs := w.fs.set (w.fs.entry target) (some (.file (bytesOf (withPatches a b parts (splitInclusive t))))) } =
      (.exited 0, { w with fs := w.fs.set (w.fs.entry target) (some (.file new)) }) := by
    intro patch d content a b st new hp hc ht hne hr
    rw [eu a b]
    have := C46_normal q temp patch target true
      { w with fs := w.fs.set (w.fs.entry target) (some (.file (Str.bytes (withPatches a b parts (splitInclusive t)).flatten))) }
      (.textChange d) ⟨⟨content, false⟩, FS.contentAt_of_file (by simp [hne, hp]), hc⟩ (congrArg some ht) hf (by simp [hnt, hfree])
      (FS.contentAt_of_file (c := Str.bytes (withPatches a b parts (splitInclusive t)).flatten) (by simp)) ⟨_, _, rfl, hr⟩
    rw [this]
    simp only [FS.set_entry, FS.set_set]
  refine ⟨_, _, _, r1, r2, later one d content true true s1 _ hp1 hc1 ht1 hne1 b1, r3, ?_⟩
  refine (later two d' content' false true s2 _ hp2 hc2 ht2 hne2 b2).trans ?_
  have : w.fs.set (w.fs.entry target) (some (.file (bytesOf (withPatches false false parts (splitInclusive t))))) = w.fs :=
    FS.set_same _ hold
  rw [this]

theorem owned_locatableBack : ∀ which other, LocatableBack which other ownedParts (letters ['j', 'k']) := by
  intro which other
  cases which <;> cases other
  · exact ⟨by decide +kernel, by decide +kernel, trivial⟩
  · exact ⟨by decide +kernel, by decide +kernel, trivial⟩
  · exact ⟨by decide +kernel, by decide +kernel, by decide +kernel, trivial⟩
  · exact ⟨by decide +kernel, by decide +kernel, by decide +kernel, trivial⟩

example (q : Profile) := C146_either .debug .debug q _ _ _ _ 1 1 (by decide) (by decide) ownedParts (letters ['j', 'k'])
  (by exact woven_diff) owned_diff (by decide +kernel) owned_locatableBack

/-- The situation: `A` is the file of C145, `C` and `D` are the patches. -/
example (q : Profile) : ∃ w w1 w2 w3 : World, (pwPatch q [84] [67] false).run w = (.exited 0, w1) ∧
    (pwPatch q [84] [68] false).run w1 = (.exited 0, w2) ∧ (pwPatch q [84] [67] true).run w2 = (.exited 0, w3) ∧
    (pwPatch q [84] [68] false).run w = (.exited 0, w3) ∧ (pwPatch q [84] [68] true).run w3 = (.exited 0, w) ∧
    w.fs.contentAt [65] = some ⟨bytesOf (letters ['a', 'N', 'b', 'c', 'd', 'e', 'p', 'q', 'r', 'g', 'h', 'i', 'j', 'k']), false⟩ := by
  obtain ⟨e1, e2, e3, e4, e5, e6, e7, e8, e9, e10, e11⟩ := FS.ofFiles_patches
    (bytesOf (letters ['a', 'N', 'b', 'c', 'd', 'e', 'p', 'q', 'r', 'g', 'h', 'i', 'j', 'k']))
    (Diff.textChange ⟨[65], [66], ownClumps true ownedParts⟩).fileContent
    (Diff.textChange ⟨[65], [66], ownClumps false ownedParts⟩).fileContent
  generalize FS.ofFiles [([65], _), ([67], _), ([68], _)] = fs at *
  have paths : ∀ (cs : List (DiffClump Str)), ∀ path ∈ (Diff.textChange ⟨[65], [66], cs⟩).paths, IsUtf8 path := by
    intro cs path h
    simp only [Diff.paths, List.mem_cons, List.not_mem_nil, or_false] at h
    rcases h with rfl | rfl
    · exact ⟨['A'], by decide⟩
    · exact ⟨['B'], by decide⟩
  have hd1 : HoldsDiff fs [67] (.textChange ⟨[65], [66], ownClumps true ownedParts⟩) := by
    refine holdsDiff_of_file ?_ (paths _) e10
    intro c hc
    simp [ownClumps, ownedParts] at hc
    rcases hc with rfl | rfl <;> simp [DiffClump.InRange, wordSize]
  have hd2 : HoldsDiff fs [68] (.textChange ⟨[65], [66], ownClumps false ownedParts⟩) := by
    refine holdsDiff_of_file ?_ (paths _) e11
    intro c hc
    simp [ownClumps, ownedParts] at hc
    subst hc
    simp [DiffClump.InRange, wordSize]
  obtain ⟨r1, hr1, hc1⟩ := hd1
  obtain rfl := Option.some.inj (e10.symm.trans hr1)
  obtain ⟨r2, hr2, hc2⟩ := hd2
  obtain rfl := Option.some.inj (e11.symm.trans hr2)
  have et : splitInclusive "j\nk\n".toList = letters ['j', 'k'] := by decide +kernel
  have h := C146_program .debug .debug q [84] [67] [68] [65] ⟨fs, [], []⟩ rfl ⟨[65], [66], ownClumps true ownedParts⟩
    ⟨[65], [66], ownClumps false ownedParts⟩ _ _ (by rw [e2, e6]) (by rw [e3, e7]) hc1 hc2 rfl rfl (by rw [e4, e8])
    (by rw [e1, e2]; decide) (by rw [e1, e3]; decide) _ _ _ _ 1 1 (by decide) (by decide) ownedParts "j\nk\n".toList owned_whole rfl rfl
    (by exact woven_diff) owned_diff (by rw [e1, e5, et]; rfl) (by rw [et]; decide +kernel) (by rw [et]; exact owned_locatable)
    (by rw [et]; exact owned_locatableBack)
  obtain ⟨w1, w2, w3, h1, h2, h3, h4, h5⟩ := h
  exact ⟨_, w1, w2, w3, h1, h2, h3, h4, h5, e9⟩

end PwDiff
