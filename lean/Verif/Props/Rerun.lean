import Verif.Props.Missing
import Verif.Props.Partly

/-! # C142: a patch of which some clumps have failed, applied again -/

namespace PwDiff

/-- The lines of the result if some clumps have failed (as in C141). -/
def conflicted : List (Option (List Str) × DiffClump Str) → List Str → List Str
  | [], last => last
  | (some gap, c) :: parts, last => gap ++ c.after.items ++ conflicted parts last
  | (none, c) :: parts, last => conflictLines c.before.items c.after.items ++ conflicted parts last

/-- The same with the new lines in place of the old ones in the conflicts. -/
def reapplied : List (Option (List Str) × DiffClump Str) → List Str → List Str
  | [], last => last
  | (some gap, c) :: parts, last => gap ++ c.after.items ++ reapplied parts last
  | (none, c) :: parts, last => conflictLines c.after.items c.after.items ++ reapplied parts last

/-- What the second run finds: the clumps that were applied, and the old lines of the others in their conflicts. -/
def rerun : List Str → List (Option (List Str) × DiffClump Str) → List (Stretch Str)
  | _, [] => []
  | lead, (some gap, c) :: parts => ⟨lead ++ gap, c, true⟩ :: rerun [] parts
  | lead, (none, c) :: parts => ⟨lead ++ [marker '<'], c, false⟩ :: rerun (marker '=' :: c.after.items ++ [marker '>']) parts

/-- What stands after the last clump then. -/
def rerunEnd : List Str → List (Option (List Str) × DiffClump Str) → List Str → List Str
  | lead, [], last => lead ++ last
  | _, (some _, _) :: parts, last => rerunEnd [] parts last
  | _, (none, c) :: parts, last => rerunEnd (marker '=' :: c.after.items ++ [marker '>']) parts last

theorem rerun_spec (lead : List Str) (parts : List (Option (List Str) × DiffClump Str)) (last : List Str) :
    (rerun lead parts).map (·.clump) = parts.map (·.2) ∧
    partly (rerun lead parts) (rerunEnd lead parts last) = lead ++ conflicted parts last ∧
    wholly (rerun lead parts) (rerunEnd lead parts last) = lead ++ reapplied parts last := by
  induction parts generalizing lead with
  | nil => simp [rerun, rerunEnd, partly, wholly, conflicted, reapplied]
  | cons x parts ih =>
    obtain ⟨_ | gap, c⟩ := x
    · obtain ⟨i1, i2, i3⟩ := ih (marker '=' :: c.after.items ++ [marker '>'])
      simp only [List.cons_append, List.append_assoc, List.nil_append] at i1 i2 i3
      simp [rerun, rerunEnd, partly, wholly, conflicted, reapplied, i1, i2, i3, sideOf, conflictLines]
    · obtain ⟨i1, i2, i3⟩ := ih []
      simp [rerun, rerunEnd, partly, wholly, conflicted, reapplied, i1, i2, i3, sideOf]

theorem bytesOf_conflictLines (old new : List Str) : bytesOf (conflictLines old new) = conflict old new := by
  have := bytesOf_failedLines ⟨(0, 0), ⟨0, old⟩, ⟨0, new⟩⟩ []
  simpa [failedLines, conflictLines, bytesOf] using this

theorem bytesOf_conflicted (parts : List (Option (List Str) × DiffClump Str)) (last : List Str) :
    bytesOf (conflicted parts last) = withConflicts parts last := by
  induction parts with
  | nil => rfl
  | cons x parts ih =>
    obtain ⟨_ | gap, c⟩ := x
    · simp only [conflicted, withConflicts, bytesOf_append, ih, bytesOf_conflictLines]
    · simp only [conflicted, withConflicts, bytesOf_append, ih]

/-- The lines of the clumps, and those between them, end with a line feed. -/
def WholeLines (parts : List (Option (List Str) × DiffClump Str)) : Prop :=
  ∀ x ∈ parts, (∀ gap ∈ x.1, ∀ y ∈ gap, WholeLine y) ∧ ∀ y ∈ x.2.before.items ++ x.2.after.items, WholeLine y

theorem split_conflicted (parts : List (Option (List Str) × DiffClump Str)) (t : Str) (hw : WholeLines parts) :
    splitInclusive (conflicted parts (splitInclusive t)).flatten = conflicted parts (splitInclusive t) := by
  have hmark : ∀ x : Char, x = '<' ∨ x = '=' ∨ x = '>' → WholeLine (marker x) := by
    rintro x (rfl | rfl | rfl) <;> exact ⟨_, rfl, by decide⟩
  have e : ∃ ls, (∀ y ∈ ls, WholeLine y) ∧ conflicted parts (splitInclusive t) = ls ++ splitInclusive t := by
    induction parts with
    | nil => exact ⟨[], by simp, rfl⟩
    | cons x parts ih =>
      obtain ⟨ls, h1, h2⟩ := ih fun y hy => hw y (List.mem_cons_of_mem _ hy)
      obtain ⟨hg, hc⟩ := hw x List.mem_cons_self
      obtain ⟨_ | gap, c⟩ := x
      · refine ⟨conflictLines c.before.items c.after.items ++ ls, fun y hy => ?_, by simp [conflicted, h2]⟩
        rcases List.mem_append.1 hy with hy | hy
        · simp only [conflictLines, List.cons_append, List.mem_cons, List.mem_append, List.not_mem_nil, or_false] at hy
          rcases hy with rfl | (hy | rfl | hy) | rfl
          · exact hmark _ (.inl rfl)
          · exact hc y (by simp [hy])
          · exact hmark _ (.inr (.inl rfl))
          · exact hc y (by simp [hy])
          · exact hmark _ (.inr (.inr rfl))
        · exact h1 y hy
      · refine ⟨gap ++ c.after.items ++ ls, fun y hy => ?_, by simp [conflicted, h2]⟩
        simp only [List.mem_append] at hy
        rcases hy with (hy | hy) | hy
        · exact hg gap rfl y hy
        · exact hc y (by simp [hy])
        · exact h1 y hy
  obtain ⟨ls, h1, h2⟩ := e
  rw [h2, List.flatten_append, flatten_splitInclusive, splitInclusive_flatten h1]

/-- In the result of the first run, a clump that was applied has added a line that is there only once and removed one that is not there
any more; a clump that has failed removes a line that is there only once (in its conflict). -/
def EvidentThen (l : List Str) : Option (List Str) × DiffClump Str → Prop
  | (some _, c) => ChangesUnique l c.swap ∧ ∃ y ∈ trim c.contextLengths c.before.items, y ∉ l
  | (none, c) => ChangesUnique l c

instance (l : List Str) (x : Option (List Str) × DiffClump Str) : Decidable (EvidentThen l x) := by
  obtain ⟨_ | _, c⟩ := x <;> unfold EvidentThen <;> infer_instance

/-- A line of the side that is there is in the file only once. -/
def SeenOnce {T : Type} [DecidableEq T] (l : List T) (x : Stretch T) : Prop :=
  ∃ y ∈ trim x.clump.contextLengths (sideOf x.done x.clump).items, l.count y = 1

theorem fitsOnce_of_seen {T : Type} [DecidableEq T] {l last front : List T} {pos : Nat} {parts : List (Stretch T)}
    (hl : l = front ++ partly parts last) (hpos : front.length = pos) (h : ∀ x ∈ parts, SeenOnce l x) : FitsOnce l pos parts :=
  fitsOnce_of_once hl hpos h

theorem rerun_evident {l lead : List Str} {parts : List (Option (List Str) × DiffClump Str)} (h : ∀ x ∈ parts, EvidentThen l x) :
    ∀ x ∈ rerun lead parts, SeenOnce l x ∧
      (x.done = true → NowhereFits l x.clump.contextLengths x.clump.before) := by
  induction parts generalizing lead with
  | nil => simp [rerun]
  | cons x parts ih =>
    have hx := h x List.mem_cons_self
    have h' := fun y hy => h y (List.mem_cons_of_mem x hy)
    obtain ⟨_ | gap, c⟩ := x
    · intro y hy
      rcases List.mem_cons.1 hy with rfl | hy
      · exact ⟨hx, nofun⟩
      · exact ih h' y hy
    · intro y hy
      rcases List.mem_cons.1 hy with rfl | hy
      · obtain ⟨h1, z, hz, hm⟩ := hx
        exact ⟨h1, fun _ => nowhere_of_missing hz hm⟩
      · exact ih h' y hy

theorem howMany_sum {T : Type} (done : Bool) (pos : Nat) (offset : Int) (parts : List (Stretch T)) :
    howMany done false pos offset parts + howMany done true pos offset parts = parts.countP (·.done == done) := by
  induction parts generalizing pos offset with
  | nil => rfl
  | cons x parts ih =>
    have := ih (pos + x.gap.length + (sideOf x.done x.clump).items.length) ((pos + x.gap.length : Nat) - (sideOf x.done x.clump).start)
    simp only [howMany, List.countP_cons, beq_iff_eq, Bool.false_eq_true, false_iff, true_iff, Decidable.not_not]
    by_cases h1 : x.done = done
    · by_cases h2 : ((pos + x.gap.length : Nat) : Int) = (sideOf x.done x.clump).start + offset
      · simp only [h1, h2, ne_eq, not_true_eq_false, true_and, and_true, if_true, if_false] at *
        omega
      · simp only [h1, true_and, if_true] at *
        rw [if_neg h2, if_pos h2]
        omega
    · simp only [h1, false_and, if_false]
      omega

theorem rerun_count (lead : List Str) (parts : List (Option (List Str) × DiffClump Str)) :
    (rerun lead parts).countP (·.done == false) = missing parts ∧
    (rerun lead parts).countP (·.done == true) + missing parts = parts.length := by
  induction parts generalizing lead with
  | nil => exact ⟨rfl, rfl⟩
  | cons x parts ih =>
    obtain ⟨_ | gap, c⟩ := x
    · obtain ⟨i1, i2⟩ := ih (marker '=' :: c.after.items ++ [marker '>'])
      simp only [rerun, List.countP_cons, missing, List.length_cons, i1]
      constructor
      · rfl
      · simp only [Bool.false_beq, Bool.not_true, Bool.false_eq_true, if_false]
        omega
    · obtain ⟨i1, i2⟩ := ih []
      simp only [rerun, List.countP_cons, missing, List.length_cons, i1]
      constructor
      · rfl
      · simp only [beq_self_eq_true, if_true]
        omega

/-- A patch was applied to a file in which the old lines of some clumps are, and those of others are not (see C141): the latter have
failed. Applied again to the result, it fails nowhere: the clumps that were applied are recognised as applied, and the others are applied
to the old lines in their own conflicts, in which the new lines then stand twice. (Release builds; each clump can be recognised by one
line, and stands before the limit of the search.) -/
theorem C142_again (p : Profile) (before after : List Str) (context : Nat) (hctx : context ≤ 255)
    (parts : List (Option (List Str) × DiffClump Str)) (t : Str) (hw : WholeLines parts)
    (h : diffClumps p before after context = .ok (parts.map (·.2)))
    (hsz1 : before.length + after.length + (having parts (splitInclusive t)).length ≤ maxLines)
    (he1 : ∀ x ∈ parts, Evident (having parts (splitInclusive t)) x) (hr1 : FoundInTime (having parts (splitInclusive t)) 0 0 parts)
    (hsz2 : before.length + after.length + (conflicted parts (splitInclusive t)).length ≤ maxLines)
    (he2 : ∀ x ∈ parts, EvidentThen (conflicted parts (splitInclusive t)) x)
    (hr2 : InReach (conflicted parts (splitInclusive t)) 0 0 (rerun [] parts)) :
    ∃ (u : Str) (st st' : Statistics),
      (applyInto .release (parts.map (·.2)) (having parts (splitInclusive t)) false).run = (.ok st, u.bytes) ∧
      splitInclusive u = conflicted parts (splitInclusive t) ∧
      (applyInto .release (parts.map (·.2)) (splitInclusive u) false).run = (.ok st', bytesOf (reapplied parts (splitInclusive t))) ∧
      st.failed = missing parts ∧ st'.failed = 0 ∧ st'.clean + st'.fuzzy = missing parts ∧
      st'.alreadyApplied + st'.alreadyAppliedFuzzy + missing parts = parts.length := by
  obtain ⟨e1, e2, e3⟩ := rerun_spec [] parts (splitInclusive t)
  rw [List.nil_append] at e2 e3
  have hev := rerun_evident (lead := []) he2
  have h1 := C141_once p before after context hctx parts (splitInclusive t) h hsz1 he1 hr1
  have h2 := C139_found p .release before after context hctx (rerun [] parts) (rerunEnd [] parts (splitInclusive t)) (by rw [e1]; exact h)
    (by rw [e2]; exact hsz2) (by rw [e2]; exact fun x hx => (hev x hx).2)
    (fitsOnce_of_seen (front := []) rfl rfl (by rw [e2]; exact fun x hx => (hev x hx).1)) (by rw [e2]; exact hr2) nofun
  rw [e1, e2, e3] at h2
  have hs := split_conflicted parts t hw
  obtain ⟨c1, c2⟩ := rerun_count [] parts
  exact ⟨(conflicted parts (splitInclusive t)).flatten, _, _,
    h1.trans (congrArg (Prod.mk _) (by rw [← bytesOf_conflicted]; exact flatMap_bytes _)), hs, by rw [hs]; exact h2, rfl, rfl,
    by rw [howMany_sum, c1], by rw [howMany_sum, c2]⟩

/-- The situation: the second clump of the patch of C141 has failed. -/
theorem someThere_whole : WholeLines someThere := by
  intro x hx
  have key : ∀ x ∈ someThere, (∀ gap ∈ x.1, ∀ y ∈ gap, ∃ a ∈ ['a', 'N', 'b', 'c', 'd', 'e', 'X', 'Y', 'g', 'h', 'i', 'Z', 'W'], y = ln a) ∧
      ∀ y ∈ x.2.before.items ++ x.2.after.items, ∃ a ∈ ['a', 'N', 'b', 'c', 'd', 'e', 'X', 'Y', 'g', 'h', 'i', 'Z', 'W'], y = ln a := by
    decide +kernel
  have whole : ∀ y, (∃ a ∈ ['a', 'N', 'b', 'c', 'd', 'e', 'X', 'Y', 'g', 'h', 'i', 'Z', 'W'], y = ln a) → WholeLine y := by
    rintro y ⟨a, ha, rfl⟩
    refine ⟨[a], rfl, ?_⟩
    revert a
    decide +kernel
  exact ⟨fun gap hg y hy => whole y ((key x hx).1 gap hg y hy), fun y hy => whole y ((key x hx).2 y hy)⟩

example := C142_again .debug _ _ 1 (by decide) someThere "f\ng\nQ\ni\nj\n".toList someThere_whole woven_diff (by decide +kernel)
  (by decide +kernel) (someThere_found _) (by decide +kernel) (by decide +kernel) ⟨by decide +kernel, by decide +kernel, trivial⟩

example : bytesOf (reapplied someThere (splitInclusive "f\ng\nQ\ni\nj\n".toList)) = Str.bytes
    "a\nN\nb\nc\nX\nY\ne\n<<<<<<<\ng\nZ\nW\ni\n=======\ng\nZ\nW\ni\n>>>>>>>\nf\ng\nQ\ni\nj\n".toList := by decide +kernel

/-- C142 for `pw_patch`: both runs end with exit status 0. After the first, the conflicts of the clumps that have failed are in the
file; after the second they are there with the new lines on both sides. -/
theorem C142_program (p : Profile) (temp patch target : Path) (w : World) (hf : w.faults = []) (d : TextChangeDiff) (content : List UInt8)
    (hp : w.fs.node (w.fs.entry patch) = some (.file content)) (hc : Diff.fromReader ⟨content, false⟩ = .ok (.textChange d))
    (htg : d.beforePath = target) (hfree : w.fs.node (w.fs.entry temp) = none) (hne : w.fs.entry patch ≠ w.fs.entry target)
    (before after : List Str) (context : Nat) (hctx : context ≤ 255)
    (parts : List (Option (List Str) × DiffClump Str)) (s t : Str) (hw : WholeLines parts)
    (hd : d.clumps = parts.map (·.2)) (h : diffClumps p before after context = .ok d.clumps)
    (hold : w.fs.node (w.fs.entry target) = some (.file s.bytes)) (hs : splitInclusive s = having parts (splitInclusive t))
    (hsz1 : before.length + after.length + (splitInclusive s).length ≤ maxLines)
    (he1 : ∀ x ∈ parts, Evident (splitInclusive s) x) (hr1 : FoundInTime (splitInclusive s) 0 0 parts)
    (hsz2 : before.length + after.length + (conflicted parts (splitInclusive t)).length ≤ maxLines)
    (he2 : ∀ x ∈ parts, EvidentThen (conflicted parts (splitInclusive t)) x)
    (hr2 : InReach (conflicted parts (splitInclusive t)) 0 0 (rerun [] parts)) :
    let leaves (ls : List Str) : World := { w with fs := w.fs.set (w.fs.entry target) (some (.file (bytesOf ls))) }
    (pwPatch .release temp patch false).run w = (.exited 0, leaves (conflicted parts (splitInclusive t))) ∧
    (pwPatch .release temp patch false).run (leaves (conflicted parts (splitInclusive t))) =
      (.exited 0, leaves (reapplied parts (splitInclusive t))) := by
  subst htg
  rw [hs] at hsz1 he1 hr1
  obtain ⟨u, st, st', e1, e2, e3, -⟩ := C142_again p before after context hctx parts t hw (hd ▸ h) hsz1 he1 hr1 hsz2 he2 hr2
  rw [← hd, ← hs] at e1
  rw [← hd] at e3
  have eu : bytesOf (conflicted parts (splitInclusive t)) = u.bytes := by rw [← e2, bytesOf_splitInclusive]
  have hnt : w.fs.entry temp ≠ w.fs.entry d.beforePath := by
    intro e
    rw [e, hold] at hfree
    cases hfree
  refine ⟨?_, ?_⟩
  · exact C46_normal .release temp patch d.beforePath false w (.textChange d) ⟨_, FS.contentAt_of_file hp, hc⟩ rfl hf hfree
      (FS.contentAt_of_file hold) ⟨s, _, rfl, by rw [eu]; exact e1⟩
  · simp only [eu]
    have := C46_normal .release temp patch d.beforePath false
      { w with fs := w.fs.set (w.fs.entry d.beforePath) (some (.file u.bytes)) } (.textChange d)
      ⟨⟨content, false⟩, FS.contentAt_of_file (by simp [hne, hp]), hc⟩ rfl hf (by simp [hnt, hfree])
      (FS.contentAt_of_file (c := u.bytes) (by simp)) ⟨u, _, rfl, e3⟩
    rw [this]
    simp only [FS.set_entry, FS.set_set]

example : ∃ w w1 w2 : World, (pwPatch .release [84] [67] false).run w = (.exited 0, w1) ∧
    (pwPatch .release [84] [67] false).run w1 = (.exited 0, w2) ∧
    w.fs.contentAt [65] = some ⟨Str.bytes "a\nN\nb\nc\nd\ne\nf\ng\nQ\ni\nj\n".toList, false⟩ ∧
    w2.fs.contentAt [65] = some ⟨bytesOf (reapplied someThere (splitInclusive "f\ng\nQ\ni\nj\n".toList)), false⟩ := by
  obtain ⟨e1, e2, e3, e3', e4, e5, e6, e6', e7, e8⟩ := FS.ofFiles_two (Str.bytes "a\nN\nb\nc\nd\ne\nf\ng\nQ\ni\nj\n".toList)
    (Diff.textChange ⟨[65], [66], someThere.map (·.2)⟩).fileContent
  generalize FS.ofFiles [([65], _), ([67], _)] = fs at *
  have hd : HoldsDiff fs [67] (.textChange ⟨[65], [66], someThere.map (·.2)⟩) := by
    refine holdsDiff_of_file ?_ ?_ e8
    · intro c hc
      simp only [someThere, List.map_cons, List.map_nil, List.mem_cons, List.not_mem_nil, or_false] at hc
      rcases hc with rfl | rfl <;> simp [DiffClump.InRange, wordSize]
    · intro path h
      simp only [Diff.paths, List.mem_cons, List.not_mem_nil, or_false] at h
      rcases h with rfl | rfl
      · exact ⟨['A'], by decide⟩
      · exact ⟨['B'], by decide⟩
  obtain ⟨r, hr1, hr2⟩ := hd
  obtain rfl := Option.some.inj (e8.symm.trans hr1)
  have hs : splitInclusive "a\nN\nb\nc\nd\ne\nf\ng\nQ\ni\nj\n".toList = having someThere (splitInclusive "f\ng\nQ\ni\nj\n".toList) := by
    decide +kernel
  have h := C142_program .debug [84] [67] [65] ⟨fs, [], []⟩ rfl ⟨[65], [66], someThere.map (·.2)⟩ _ (by rw [e2, e5]) hr2 rfl
    (by rw [e3, e6']) (by rw [e1, e2]; decide) _ _ 1 (by decide) someThere "a\nN\nb\nc\nd\ne\nf\ng\nQ\ni\nj\n".toList
    "f\ng\nQ\ni\nj\n".toList someThere_whole rfl woven_diff (by rw [e1, e4]) hs
    (by decide +kernel) (by decide +kernel) (by rw [hs]; exact someThere_found _) (by decide +kernel) (by decide +kernel)
    ⟨by decide +kernel, by decide +kernel, trivial⟩
  exact ⟨_, _, _, h.1, h.2, e7, FS.contentAt_of_file (by simp)⟩
end PwDiff
