import Verif.Props.Rerun

/-! # C143: a patch of which some clumps have failed, taken back -/

namespace PwDiff

/-- The lines of the file when the clumps that were applied are taken back, with the old lines in place of the new ones in the conflicts. -/
def takenBack : List (Option (List Str) × DiffClump Str) → List Str → List Str
  | [], last => last
  | (some gap, c) :: parts, last => gap ++ c.before.items ++ takenBack parts last
  | (none, c) :: parts, last => conflictLines c.before.items c.before.items ++ takenBack parts last

/-- Where the new lines are after the first run: those of the clumps that have failed are in their conflicts. -/
def newLines : List Str → List (Option (List Str) × DiffClump Str) → List (List Str × DiffClump Str)
  | _, [] => []
  | lead, (some gap, c) :: parts => (lead ++ gap, c) :: newLines [] parts
  | lead, (none, c) :: parts => (lead ++ marker '<' :: c.before.items ++ [marker '='], c) :: newLines [marker '>'] parts

/-- What stands after the last clump then. -/
def newLinesEnd : List Str → List (Option (List Str) × DiffClump Str) → List Str → List Str
  | lead, [], last => lead ++ last
  | _, (some _, _) :: parts, last => newLinesEnd [] parts last
  | _, (none, _) :: parts, last => newLinesEnd [marker '>'] parts last

theorem newLines_spec (lead : List Str) (parts : List (Option (List Str) × DiffClump Str)) (last : List Str) :
    (newLines lead parts).map (·.2) = parts.map (·.2) ∧
    woven DiffClump.after (newLines lead parts) (newLinesEnd lead parts last) = lead ++ conflicted parts last ∧
    woven DiffClump.before (newLines lead parts) (newLinesEnd lead parts last) = lead ++ takenBack parts last := by
  induction parts generalizing lead with
  | nil => simp [newLines, newLinesEnd, woven, conflicted, takenBack]
  | cons x parts ih =>
    obtain ⟨_ | gap, c⟩ := x
    · obtain ⟨i1, i2, i3⟩ := ih [marker '>']
      simp only [List.cons_append, List.nil_append] at i1 i2 i3
      simp [newLines, newLinesEnd, woven, conflicted, takenBack, i1, i2, i3, conflictLines]
    · obtain ⟨i1, i2, i3⟩ := ih []
      simp [newLines, newLinesEnd, woven, conflicted, takenBack, i1, i2, i3]

/-- A patch was applied to a file in which the old lines of some clumps are, and those of others are not (see C141): the latter have
failed. Taken back from the result, it fails nowhere: the clumps that were applied are taken back, and the others are taken back from the
new lines in their own conflicts, which stay in the file with the old lines on both sides. So the file that was patched does not come
back. (The first run is that of a release build; each clump can be recognised by one line, and stands before the limit of the search.) -/
theorem C143_exact (p q : Profile) (before after : List Str) (context : Nat) (hctx : context ≤ 255)
    (parts : List (Option (List Str) × DiffClump Str)) (t : Str) (hw : WholeLines parts)
    (h : diffClumps p before after context = .ok (parts.map (·.2)))
    (hsz1 : before.length + after.length + (having parts (splitInclusive t)).length ≤ maxLines)
    (he1 : ∀ x ∈ parts, Evident (having parts (splitInclusive t)) x) (hr1 : FoundInTime (having parts (splitInclusive t)) 0 0 parts)
    (hsz2 : before.length + after.length + (conflicted parts (splitInclusive t)).length ≤ maxLines)
    (he2 : ∀ x ∈ parts, ChangesUnique (conflicted parts (splitInclusive t)) x.2.swap) :
    ∃ (u : Str) (st : Statistics),
      (applyInto .release (parts.map (·.2)) (having parts (splitInclusive t)) false).run = (.ok st, u.bytes) ∧
      splitInclusive u = conflicted parts (splitInclusive t) ∧ st.failed = missing parts ∧
      ((∃ st' : Statistics, (applyInto q (parts.map (·.2)) (splitInclusive u) true).run =
          (.ok st', bytesOf (takenBack parts (splitInclusive t))) ∧ st'.clean + st'.fuzzy = parts.length ∧ st'.failed = 0 ∧
          st'.fuzzy = shifts DiffClump.after 0 0 (newLines [] parts) ∧ st'.alreadyApplied = 0 ∧ st'.alreadyAppliedFuzzy = 0) ↔
        WithinSearch DiffClump.after (conflicted parts (splitInclusive t)) 0 0 (newLines [] parts)) := by
  obtain ⟨e1, e2, e3⟩ := newLines_spec [] parts (splitInclusive t)
  rw [List.nil_append] at e2 e3
  have hlen : (newLines [] parts).length = parts.length := by simpa using congrArg List.length e1
  have h1 := C141_once p before after context hctx parts (splitInclusive t) h hsz1 he1 hr1
  have hm : ∀ x ∈ newLines [] parts, ChangesUnique (conflicted parts (splitInclusive t)) x.2.swap := by
    intro x hx
    have : x.2 ∈ parts.map (·.2) := e1 ▸ List.mem_map_of_mem hx
    obtain ⟨y, hy, e⟩ := List.mem_map.1 this
    rw [← e]
    exact he2 y hy
  have hu : OnlyThere DiffClump.after (conflicted parts (splitInclusive t)) 0 (newLines [] parts) := by
    obtain ⟨-, f2, -, -, f5, -⟩ := swap_parts (conflicted parts (splitInclusive t)) (newLines [] parts)
      (newLinesEnd [] parts (splitInclusive t)) 0 0
    refine f5.1 (onlyThere_of_once (last := newLinesEnd [] parts (splitInclusive t)) (front := []) (by rw [f2, e2]; rfl) rfl ?_)
    intro x hx
    obtain ⟨y, hy, rfl⟩ := List.mem_map.1 hx
    exact hm y hy
  have h2 := C137_reverse p q before after context hctx (newLines [] parts) (newLinesEnd [] parts (splitInclusive t)) (by rw [e1]; exact h)
    (by rw [e2]; exact hsz2) (by rw [e2]; exact hu)
  rw [e1, e2, e3, hlen] at h2
  have hs := split_conflicted parts t hw
  have hle := shifts_le DiffClump.after 0 0 (newLines [] parts)
  refine ⟨(conflicted parts (splitInclusive t)).flatten, _,
    h1.trans (congrArg (Prod.mk _) (by rw [← bytesOf_conflicted]; exact flatMap_bytes _)), hs, rfl, ?_⟩
  rw [hs, ← h2]
  constructor
  · rintro ⟨st', e, k1, k2, k3, k4, k5⟩
    rw [e]
    obtain ⟨a, b, c, d, f⟩ := st'
    simp only at k1 k2 k3 k4 k5
    subst k2 k3 k4 k5
    congr 2
    congr 1
    omega
  · intro e
    exact ⟨_, e, by simp only []; omega, rfl, rfl, rfl, rfl⟩

theorem someThere_newLines : WithinSearch DiffClump.after (conflicted someThere (splitInclusive "f\ng\nQ\ni\nj\n".toList)) 0 0
    (newLines [] someThere) := ⟨by decide +kernel, by decide +kernel, trivial⟩

/-- The second clump of the patch of C141 has failed. -/
example (q : Profile) := C143_exact .debug q _ _ 1 (by decide) someThere "f\ng\nQ\ni\nj\n".toList someThere_whole woven_diff
  (by decide +kernel) (by decide +kernel) (someThere_found _) (by decide +kernel) (by decide +kernel)

/-- What is in the file when the patch was taken back. -/
example : bytesOf (takenBack someThere (splitInclusive "f\ng\nQ\ni\nj\n".toList)) = Str.bytes
    "a\nN\nb\nc\nd\ne\n<<<<<<<\ng\nh\ni\n=======\ng\nh\ni\n>>>>>>>\nf\ng\nQ\ni\nj\n".toList := by decide +kernel

/-- What one may expect: if a patch was applied, and then taken back without a failure, the file is as it was. -/
def C143_statement : Prop :=
  ∀ (p q : Profile) (before after : List Str) (context : Nat) (clumps : List (DiffClump Str)) (s u v : Str) (st st' : Statistics),
    context ≤ 255 → diffClumps p before after context = .ok clumps →
    (applyInto q clumps (splitInclusive s) false).run = (.ok st, u.bytes) → st.alreadyApplied = 0 → st.alreadyAppliedFuzzy = 0 →
    (applyInto q clumps (splitInclusive u) true).run = (.ok st', v.bytes) → st'.failed = 0 → v = s

/-- That is not so if a clump has failed in the first run. -/
theorem C143_refuted : ¬ C143_statement := by
  intro h
  have := h .debug .release _ _ 1 (someThere.map (·.2)) "a\nN\nb\nc\nd\ne\nf\ng\nQ\ni\nj\n".toList
    "a\nN\nb\nc\nX\nY\ne\n<<<<<<<\ng\nh\ni\n=======\ng\nZ\nW\ni\n>>>>>>>\nf\ng\nQ\ni\nj\n".toList
    "a\nN\nb\nc\nd\ne\n<<<<<<<\ng\nh\ni\n=======\ng\nh\ni\n>>>>>>>\nf\ng\nQ\ni\nj\n".toList
    { clean := 0, fuzzy := 1, failed := 1 } { clean := 0, fuzzy := 2 } (by decide) woven_diff
    (by decide +kernel) rfl rfl (by decide +kernel) rfl
  revert this
  decide +kernel

/-- C143 for `pw_patch`: both runs, the second with `--reverse`, end with exit status 0. -/
theorem C143_program (p : Profile) (temp patch target : Path) (w : World) (hf : w.faults = []) (d : TextChangeDiff) (content : List UInt8)
    (hp : w.fs.node (w.fs.entry patch) = some (.file content)) (hc : Diff.fromReader ⟨content, false⟩ = .ok (.textChange d))
    (htg : d.beforePath = target) (hfree : w.fs.node (w.fs.entry temp) = none) (hne : w.fs.entry patch ≠ w.fs.entry target)
    (before after : List Str) (context : Nat) (hctx : context ≤ 255)
    (parts : List (Option (List Str) × DiffClump Str)) (s t : Str) (hw : WholeLines parts)
    (hd : d.clumps = parts.map (·.2)) (h : diffClumps p before after context = .ok d.clumps)
    (hold : w.fs.node (w.fs.entry target) = some (.file s.bytes)) (hs : splitInclusive s = having parts (splitInclusive t))
    (hsz1 : before.length + after.length + (splitInclusive s).length ≤ maxLines)
    (he1 : ∀ x ∈ parts, Evident (splitInclusive s) x) (hr1 : FoundInTime (splitInclusive s) 0 0 parts)
    (hsz2 : before.length + after.length + (conflicted parts (splitInclusive t)).length ≤ maxLines)
    (he2 : ∀ x ∈ parts, ChangesUnique (conflicted parts (splitInclusive t)) x.2.swap)
    (hr2 : WithinSearch DiffClump.after (conflicted parts (splitInclusive t)) 0 0 (newLines [] parts)) :
    let leaves (ls : List Str) : World := { w with fs := w.fs.set (w.fs.entry target) (some (.file (bytesOf ls))) }
    (pwPatch .release temp patch false).run w = (.exited 0, leaves (conflicted parts (splitInclusive t))) ∧
    (pwPatch .release temp patch true).run (leaves (conflicted parts (splitInclusive t))) =
      (.exited 0, leaves (takenBack parts (splitInclusive t))) := by
  rw [hs] at hsz1 he1 hr1
  obtain ⟨u, st, e1, e2, -, e3⟩ := C143_exact p .release before after context hctx parts t hw (hd ▸ h) hsz1 he1 hr1 hsz2 he2
  obtain ⟨st', e3, -⟩ := e3.2 hr2
  rw [← hd, ← hs] at e1
  rw [← hd] at e3
  have eu : bytesOf (conflicted parts (splitInclusive t)) = u.bytes := by rw [← e2, bytesOf_splitInclusive]
  have hnt : w.fs.entry temp ≠ w.fs.entry target := by
    intro e
    rw [e, hold] at hfree
    cases hfree
  refine ⟨?_, ?_⟩
  · exact C46_normal .release temp patch target false w (.textChange d) ⟨_, FS.contentAt_of_file hp, hc⟩ (congrArg some htg) hf hfree
      (FS.contentAt_of_file hold) ⟨s, _, rfl, by rw [eu]; exact e1⟩
  · simp only [eu]
    have := C46_normal .release temp patch target true
      { w with fs := w.fs.set (w.fs.entry target) (some (.file u.bytes)) } (.textChange d)
      ⟨⟨content, false⟩, FS.contentAt_of_file (by simp [hne, hp]), hc⟩ (congrArg some htg) hf (by simp [hnt, hfree])
      (FS.contentAt_of_file (c := u.bytes) (by simp)) ⟨u, _, rfl, e3⟩
    rw [this]
    simp only [FS.set_entry, FS.set_set]

example : ∃ w w1 w2 : World, (pwPatch .release [84] [67] false).run w = (.exited 0, w1) ∧
    (pwPatch .release [84] [67] true).run w1 = (.exited 0, w2) ∧
    w.fs.contentAt [65] = some ⟨Str.bytes "a\nN\nb\nc\nd\ne\nf\ng\nQ\ni\nj\n".toList, false⟩ ∧
    w2.fs.contentAt [65] = some ⟨bytesOf (takenBack someThere (splitInclusive "f\ng\nQ\ni\nj\n".toList)), false⟩ := by
  obtain ⟨e1, e2, e3, e3', e4, e5, e6, e6', e7, e8⟩ := FS.ofFiles_two (Str.bytes "a\nN\nb\nc\nd\ne\nf\ng\nQ\ni\nj\n".toList)
    (Diff.textChange ⟨[65], [66], someThere.map (·.2)⟩).fileContent
  generalize FS.ofFiles [([65], _), ([67], _)] = fs at *
  have hd : HoldsDiff fs [67] (.textChange ⟨[65], [66], someThere.map (·.2)⟩) := by
    refine holdsDiff_of_file ?_ ?_ e8
    · intro c hc
      simp only [someThere, List.map_cons, List.map_nil, List.mem_cons, List.not_mem_nil, or_false] at hc
      rcases hc with rfl | rfl <;> simp [DiffClump.InRange, wordSize]
    · intro path h
      simp only [Diff.paths, List.mem_cons, List.not_mem_nil, or_false] at h
      rcases h with rfl | rfl
      · exact ⟨['A'], by decide⟩
      · exact ⟨['B'], by decide⟩
  obtain ⟨r, hr1, hr2⟩ := hd
  obtain rfl := Option.some.inj (e8.symm.trans hr1)
  have hs : splitInclusive "a\nN\nb\nc\nd\ne\nf\ng\nQ\ni\nj\n".toList = having someThere (splitInclusive "f\ng\nQ\ni\nj\n".toList) := by
    decide +kernel
  have h := C143_program .debug [84] [67] [65] ⟨fs, [], []⟩ rfl ⟨[65], [66], someThere.map (·.2)⟩ _ (by rw [e2, e5]) hr2 rfl
    (by rw [e3, e6']) (by rw [e1, e2]; decide) _ _ 1 (by decide) someThere "a\nN\nb\nc\nd\ne\nf\ng\nQ\ni\nj\n".toList
    "f\ng\nQ\ni\nj\n".toList someThere_whole rfl woven_diff (by rw [e1, e4]) hs
    (by decide +kernel) (by decide +kernel) (by rw [hs]; exact someThere_found _) (by decide +kernel) (by decide +kernel)
    someThere_newLines
  exact ⟨_, _, _, h.1, h.2, e7, FS.contentAt_of_file (by simp)⟩

end PwDiff
