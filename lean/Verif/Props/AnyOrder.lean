import Verif.Props.Either

/-! # C151: any number of patches in any order -/

namespace PwDiff

section

variable {T : Type}

/-- A part of a file: any lines, then those of a clump of the patch with the number `owner`. -/
structure Numbered (T : Type) where
  gap : List T
  clump : DiffClump T
  owner : Nat

/-- The file when the patches with the numbers in `done` are applied. -/
def withDone (done : List Nat) : List (Numbered T) → List T → List T
  | [], last => last
  | x :: parts, last => x.gap ++ (sideOf (done.contains x.owner) x.clump).items ++ withDone done parts last

/-- The clumps of the patch with the number `k`. -/
def clumpsNumbered (k : Nat) (parts : List (Numbered T)) : List (DiffClump T) := (parts.filter (·.owner == k)).map (·.clump)

/-- What the file is for the patch with the number `k`: its clumps, and between them anything. -/
def forNumber (k : Nat) (done : List Nat) : List T → List (Numbered T) → List (List T × DiffClump T)
  | _, [] => []
  | lead, x :: parts =>
    if x.owner == k then (lead ++ x.gap, x.clump) :: forNumber k done [] parts
    else forNumber k done (lead ++ x.gap ++ (sideOf (done.contains x.owner) x.clump).items) parts

/-- What stands after its last clump. -/
def afterNumber (k : Nat) (done : List Nat) : List T → List (Numbered T) → List T → List T
  | lead, [], last => lead ++ last
  | lead, x :: parts, last =>
    if x.owner == k then afterNumber k done [] parts last
    else afterNumber k done (lead ++ x.gap ++ (sideOf (done.contains x.owner) x.clump).items) parts last

theorem forNumber_spec (k : Nat) (done : List Nat) (hk : k ∉ done) (lead : List T) (parts : List (Numbered T)) (last : List T) :
    (forNumber k done lead parts).map (·.2) = clumpsNumbered k parts ∧
    woven DiffClump.before (forNumber k done lead parts) (afterNumber k done lead parts last) = lead ++ withDone done parts last ∧
    woven DiffClump.after (forNumber k done lead parts) (afterNumber k done lead parts last) = lead ++ withDone (k :: done) parts last := by
  induction parts generalizing lead with
  | nil => simp [forNumber, afterNumber, woven, withDone, clumpsNumbered]
  | cons x parts ih =>
    by_cases hx : (x.owner == k) = true
    · obtain ⟨i1, i2, i3⟩ := ih []
      unfold clumpsNumbered at i1 ⊢
      have e : x.owner = k := by simpa using hx
      have hk' : done.contains x.owner = false := by rw [e]; simpa using hk
      simp [forNumber, afterNumber, woven, withDone, e, i1, i2, i3, sideOf, hk]
    · obtain ⟨i1, i2, i3⟩ := ih (lead ++ x.gap ++ (sideOf (done.contains x.owner) x.clump).items)
      unfold clumpsNumbered at i1 ⊢
      have e : ¬ x.owner = k := by simpa using hx
      simp only [List.append_assoc, List.contains_eq_mem] at i1 i2 i3
      simp [forNumber, afterNumber, withDone, e, i1, i2, i3]

/-- The number of all lines, the old and the new ones. -/
def linesInAll : List (Numbered T) → List T → Nat
  | [], last => last.length
  | x :: parts, last => x.gap.length + x.clump.before.items.length + x.clump.after.items.length + linesInAll parts last

theorem length_withDone (done : List Nat) (parts : List (Numbered T)) (last : List T) :
    (withDone done parts last).length ≤ linesInAll parts last := by
  induction parts with
  | nil => exact Nat.le_refl _
  | cons x parts ih =>
    simp only [withDone, linesInAll, List.length_append]
    cases done.contains x.owner <;> simp only [sideOf] <;> omega

theorem withDone_congr {done done' : List Nat} (h : ∀ k, k ∈ done ↔ k ∈ done') (parts : List (Numbered T)) (last : List T) :
    withDone done parts last = withDone done' parts last := by
  induction parts with
  | nil => rfl
  | cons x parts ih =>
    have e : done.contains x.owner = done'.contains x.owner := by
      have := h x.owner
      by_cases hm : x.owner ∈ done
      · simp [hm, this.1 hm]
      · have hm' : x.owner ∉ done' := fun h' => hm (this.2 h')
        simp [hm, hm']
    rw [withDone, withDone, e, ih]

end

section

variable {T : Type} [DecidableEq T] [Item T] [LawfulItem T]

/-- The patches `ks` can be recognised if they are applied in this order, when those in `done` are applied already: every clump of each
removes a line that is then in the file only once, and stands before the limit of the search if it is further down than expected. -/
def LocatedInTurn (parts : List (Numbered T)) (last : List T) : List Nat → List Nat → Prop
  | _, [] => True
  | done, k :: ks => k ∉ done ∧ (∀ c ∈ clumpsNumbered k parts, ChangesUnique (withDone done parts last) c) ∧
      WithinSearch DiffClump.before (withDone done parts last) 0 0 (forNumber k done [] parts) ∧ LocatedInTurn parts last (k :: done) ks

/-- The patches `ks` are applied to `l` in this order, no clump fails, none is found to be applied already, and `l'` comes out. -/
def AppliedInTurn (q : Profile) (patch : Nat → List (DiffClump T)) : List Nat → List T → List T → Prop
  | [], l, l' => l' = l
  | k :: ks, l, l' => ∃ (m : List T) (st : Statistics), (applyInto q (patch k) l false).run = (.ok st, bytesOf m) ∧
      st.failed = 0 ∧ st.alreadyApplied = 0 ∧ st.alreadyAppliedFuzzy = 0 ∧ AppliedInTurn q patch ks m l'

/-- One of them. -/
theorem number_step (p q : Profile) (before after : List T) (context : Nat) (hctx : context ≤ 255) (k : Nat) (done : List Nat) (hk : k ∉ done)
    (parts : List (Numbered T)) (last : List T) (h : diffClumps p before after context = .ok (clumpsNumbered k parts))
    (hsz : before.length + after.length + (withDone done parts last).length ≤ maxLines)
    (hu : ∀ c ∈ clumpsNumbered k parts, ChangesUnique (withDone done parts last) c)
    (hr : WithinSearch DiffClump.before (withDone done parts last) 0 0 (forNumber k done [] parts)) :
    ∃ st : Statistics, (applyInto q (clumpsNumbered k parts) (withDone done parts last) false).run =
      (.ok st, bytesOf (withDone (k :: done) parts last)) ∧ st.failed = 0 ∧ st.alreadyApplied = 0 ∧ st.alreadyAppliedFuzzy = 0 := by
  obtain ⟨e1, e2, e3⟩ := forNumber_spec k done hk [] parts last
  rw [List.nil_append] at e2 e3
  have := C137_once p q before after context hctx (forNumber k done [] parts) (afterNumber k done [] parts last)
    (by rw [e1]; exact h) (by rw [e2]; exact hsz) (by
      rw [e2]
      intro x hx
      refine hu _ ?_
      rw [← e1]
      exact List.mem_map_of_mem hx) (by rw [e2]; exact hr)
  rw [e1, e2, e3] at this
  exact ⟨_, this, rfl, rfl, rfl⟩

/-- Any number of patches, made from whatever files, and a file in which the old lines of the clumps of all of them are, in any order and
with any lines between them. If they are applied in an order in which they can be recognised the file comes out in which the old lines of
the clumps of all of them are replaced. -/
theorem C151_in_turn (q : Profile) (parts : List (Numbered T)) (last : List T) (ks done : List Nat)
    (hd : ∀ k ∈ ks, ∃ (p : Profile) (before after : List T) (context : Nat), context ≤ 255 ∧
      diffClumps p before after context = .ok (clumpsNumbered k parts) ∧
      before.length + after.length + linesInAll parts last ≤ maxLines)
    (hl : LocatedInTurn parts last done ks) :
    AppliedInTurn q (clumpsNumbered · parts) ks (withDone done parts last) (withDone (ks.reverse ++ done) parts last) := by
  induction ks generalizing done with
  | nil => rfl
  | cons k ks ih =>
    obtain ⟨h1, h2, h3, h4⟩ := hl
    obtain ⟨p, before, after, context, hctx, h, hsz⟩ := hd k List.mem_cons_self
    obtain ⟨st, s1, s2, s3, s4⟩ := number_step p q before after context hctx k done h1 parts last h (by have := length_withDone done parts last; omega) h2 h3
    refine ⟨_, st, s1, s2, s3, s4, ?_⟩
    have := ih (k :: done) (fun k hk => hd k (List.mem_cons_of_mem _ hk)) h4
    rwa [List.reverse_cons, List.append_assoc]

/-- So in every order in which they can be recognised the same file comes out. -/
theorem C151_any_order (q : Profile) (parts : List (Numbered T)) (last : List T) (ks ks' : List Nat) (hsame : ∀ k, k ∈ ks ↔ k ∈ ks')
    (hd : ∀ k ∈ ks, ∃ (p : Profile) (before after : List T) (context : Nat), context ≤ 255 ∧
      diffClumps p before after context = .ok (clumpsNumbered k parts) ∧
      before.length + after.length + linesInAll parts last ≤ maxLines)
    (hl : LocatedInTurn parts last [] ks) (hl' : LocatedInTurn parts last [] ks') :
    ∃ l, l = withDone ks parts last ∧ AppliedInTurn q (clumpsNumbered · parts) ks (withDone [] parts last) l ∧
      AppliedInTurn q (clumpsNumbered · parts) ks' (withDone [] parts last) l := by
  have h1 := C151_in_turn q parts last ks [] hd hl
  have h2 := C151_in_turn q parts last ks' [] (fun k hk => hd k ((hsame k).2 hk)) hl'
  rw [withDone_congr (done := ks.reverse ++ []) (done' := ks) (by simp)] at h1
  rw [withDone_congr (done := ks'.reverse ++ []) (done' := ks) (by simp [hsame])] at h2
  exact ⟨_, rfl, h1, h2⟩

end

/-- `pw_patch` is run with the patches `ks` in this order, each run ends with exit status 0, and `w'` is left of `w`. -/
def RunInTurn (q : Profile) (temp : Path) (patch : Nat → Path) : List Nat → World → World → Prop
  | [], w, w' => w' = w
  | k :: ks, w, w' => ∃ v, (pwPatch q temp (patch k) false).run w = (.exited 0, v) ∧ RunInTurn q temp patch ks v w'

/-- The lines of the clumps, and those between them, end with a line feed. -/
def NumberedWhole (parts : List (Numbered Str)) : Prop :=
  ∀ x ∈ parts, (∀ y ∈ x.gap, WholeLine y) ∧ ∀ y ∈ x.clump.before.items ++ x.clump.after.items, WholeLine y

theorem split_withDone (done : List Nat) (parts : List (Numbered Str)) (t : Str) (hw : NumberedWhole parts) :
    splitInclusive (withDone done parts (splitInclusive t)).flatten = withDone done parts (splitInclusive t) := by
  have e : ∃ ls, (∀ y ∈ ls, WholeLine y) ∧ withDone done parts (splitInclusive t) = ls ++ splitInclusive t := by
    induction parts with
    | nil => exact ⟨[], by simp, rfl⟩
    | cons x parts ih =>
      obtain ⟨ls, h1, h2⟩ := ih fun y hy => hw y (List.mem_cons_of_mem _ hy)
      obtain ⟨hg, hc⟩ := hw x List.mem_cons_self
      refine ⟨x.gap ++ (sideOf (done.contains x.owner) x.clump).items ++ ls, fun y hy => ?_, by simp [withDone, h2]⟩
      simp only [List.mem_append] at hy
      rcases hy with (hy | hy) | hy
      · exact hg y hy
      · refine hc y ?_
        revert hy
        cases done.contains x.owner
        · exact fun hy => List.mem_append_left _ hy
        · exact fun hy => List.mem_append_right _ hy
      · exact h1 y hy
  obtain ⟨ls, h1, h2⟩ := e
  rw [h2, List.flatten_append, flatten_splitInclusive, splitInclusive_flatten h1]

/-- C151 for `pw_patch`: whatever the order in which the patches can be recognised, all runs end with exit status 0, and the target is left
with the old lines of all of them replaced, and everything else as it was. -/
theorem C151_program (q : Profile) (temp target : Path) (patch : Nat → Path) (d : Nat → TextChangeDiff) (content : Nat → List UInt8)
    (parts : List (Numbered Str)) (t : Str) (hw : NumberedWhole parts) (ks done : List Nat) (w : World) (hf : w.faults = [])
    (hp : ∀ k ∈ ks, w.fs.node (w.fs.entry (patch k)) = some (.file (content k)) ∧
      Diff.fromReader ⟨content k, false⟩ = .ok (.textChange (d k)) ∧ (d k).beforePath = target ∧ (d k).clumps = clumpsNumbered k parts ∧
      w.fs.entry (patch k) ≠ w.fs.entry target)
    (hfree : w.fs.node (w.fs.entry temp) = none)
    (hold : w.fs.node (w.fs.entry target) = some (.file (bytesOf (withDone done parts (splitInclusive t)))))
    (hd : ∀ k ∈ ks, ∃ (p : Profile) (before after : List Str) (context : Nat), context ≤ 255 ∧
      diffClumps p before after context = .ok (clumpsNumbered k parts) ∧
      before.length + after.length + linesInAll parts (splitInclusive t) ≤ maxLines)
    (hl : LocatedInTurn parts (splitInclusive t) done ks) :
    RunInTurn q temp patch ks w
      { w with fs := w.fs.set (w.fs.entry target) (some (.file (bytesOf (withDone (ks.reverse ++ done) parts (splitInclusive t))))) } := by
  induction ks generalizing done w with
  | nil =>
    show _ = w
    rw [List.reverse_nil, List.nil_append, FS.set_same _ hold]
  | cons k ks ih =>
    obtain ⟨h1, h2, h3, h4⟩ := hl
    obtain ⟨p, before, after, context, hctx, h, hsz⟩ := hd k List.mem_cons_self
    obtain ⟨p1, p2, p3, p4, p5⟩ := hp k List.mem_cons_self
    obtain ⟨st, s1, -⟩ := number_step p q before after context hctx k done h1 parts (splitInclusive t) h
      (by have := length_withDone done parts (splitInclusive t); omega) h2 h3
    have hs := split_withDone done parts t hw
    have eu : bytesOf (withDone done parts (splitInclusive t)) = Str.bytes (withDone done parts (splitInclusive t)).flatten := by
      rw [← bytesOf_splitInclusive, hs]
    rw [← hs, ← p4] at s1
    have hnt : w.fs.entry temp ≠ w.fs.entry target := by
      intro e
      rw [e, hold] at hfree
      cases hfree
    have hold' := hold
    rw [eu] at hold'
    refine ⟨_, C46_normal q temp (patch k) target false w (.textChange (d k)) ⟨_, FS.contentAt_of_file p1, p2⟩ (congrArg some p3) hf hfree
      (FS.contentAt_of_file hold') ⟨_, _, rfl, s1⟩, ?_⟩
    have := ih (k :: done) { w with
      fs := w.fs.set (w.fs.entry target) (some (.file (bytesOf (withDone (k :: done) parts (splitInclusive t))))) } hf
      (fun j hj => by
        obtain ⟨j1, j2, j3, j4, j5⟩ := hp j (List.mem_cons_of_mem _ hj)
        exact ⟨by simp [j5, j1], j2, j3, j4, by simpa using j5⟩)
      (by simp [hnt, hfree]) (by simp) (fun j hj => hd j (List.mem_cons_of_mem _ hj)) h4
    simp only [FS.set_entry, FS.set_set] at this
    rw [List.reverse_cons, List.append_assoc]
    exact this

/-- The file of C145 with the clump of a third patch at its end. -/
def threeParts : List (Numbered Str) :=
  [⟨letters ['a', 'N', 'b'], ⟨(1, 1), ⟨2, letters ['c', 'd', 'e']⟩, ⟨2, letters ['c', 'X', 'Y', 'e']⟩⟩, 0⟩,
   ⟨[], ⟨(1, 1), ⟨0, letters ['p', 'q', 'r']⟩, ⟨0, letters ['p', 'Q', 'S', 'r']⟩⟩, 1⟩,
   ⟨[], ⟨(1, 1), ⟨6, letters ['g', 'h', 'i']⟩, ⟨7, letters ['g', 'Z', 'W', 'i']⟩⟩, 0⟩,
   ⟨letters ['j'], ⟨(1, 1), ⟨0, letters ['s', 't', 'u']⟩, ⟨0, letters ['s', 'T', 'V', 'u']⟩⟩, 2⟩]

theorem threeParts_diffs : ∀ k ∈ [0, 1, 2], ∃ (p : Profile) (before after : List Str) (context : Nat), context ≤ 255 ∧
    diffClumps p before after context = .ok (clumpsNumbered k threeParts) ∧
    before.length + after.length + linesInAll threeParts (letters ['k', 'l']) ≤ maxLines := by
  intro k hk
  simp only [List.mem_cons, List.not_mem_nil, or_false] at hk
  rcases hk with rfl | rfl | rfl
  · exact ⟨.debug, _, _, 1, by decide, woven_diff, by decide +kernel⟩
  · exact ⟨.debug, letters ['p', 'q', 'r'], letters ['p', 'Q', 'S', 'r'], 1, by decide, by decide +kernel, by decide +kernel⟩
  · exact ⟨.debug, letters ['s', 't', 'u'], letters ['s', 'T', 'V', 'u'], 1, by decide, by decide +kernel, by decide +kernel⟩

theorem threeParts_up : LocatedInTurn threeParts (letters ['k', 'l']) [] [0, 1, 2] :=
  ⟨by decide, by decide +kernel, ⟨by decide +kernel, by decide +kernel, trivial⟩, by decide, by decide +kernel, ⟨by decide +kernel, trivial⟩,
    by decide, by decide +kernel, ⟨by decide +kernel, trivial⟩, trivial⟩

theorem threeParts_down : LocatedInTurn threeParts (letters ['k', 'l']) [] [2, 1, 0] :=
  ⟨by decide, by decide +kernel, ⟨by decide +kernel, trivial⟩, by decide, by decide +kernel, ⟨by decide +kernel, trivial⟩,
    by decide, by decide +kernel, ⟨by decide +kernel, by decide +kernel, trivial⟩, trivial⟩

example (q : Profile) := C151_in_turn q threeParts (letters ['k', 'l']) [0, 1, 2] [] threeParts_diffs threeParts_up

example (q : Profile) : ∃ l, l = letters ['a', 'N', 'b', 'c', 'X', 'Y', 'e', 'p', 'Q', 'S', 'r', 'g', 'Z', 'W', 'i', 'j', 's', 'T', 'V', 'u', 'k', 'l'] ∧
    AppliedInTurn q (clumpsNumbered · threeParts) [0, 1, 2] (withDone [] threeParts (letters ['k', 'l'])) l ∧
    AppliedInTurn q (clumpsNumbered · threeParts) [2, 1, 0] (withDone [] threeParts (letters ['k', 'l'])) l := by
  obtain ⟨l, h1, h2⟩ := C151_any_order q threeParts (letters ['k', 'l']) [0, 1, 2] [2, 1, 0]
    (by intro k; simp only [List.mem_cons, List.not_mem_nil, or_false]; omega) threeParts_diffs threeParts_up threeParts_down
  exact ⟨l, h1.trans (by decide +kernel), h2⟩

theorem FS.ofFiles_target_three (a c d e : List UInt8) : let fs := FS.ofFiles [([65], a), ([67], c), ([68], d), ([69], e)]
    (fs.entry [65] = 0 ∧ fs.entry [67] = 1 ∧ fs.entry [68] = 2 ∧ fs.entry [69] = 3 ∧ fs.entry [84] = 5) ∧ (fs.node 0 = some (.file a) ∧
      fs.node 1 = some (.file c) ∧ fs.node 2 = some (.file d) ∧ fs.node 3 = some (.file e) ∧ fs.node 5 = none) ∧
      fs.contentAt [65] = some ⟨a, false⟩ ∧ fs.contentAt [67] = some ⟨c, false⟩ ∧ fs.contentAt [68] = some ⟨d, false⟩ ∧
      fs.contentAt [69] = some ⟨e, false⟩ :=
  ⟨⟨rfl, rfl, rfl, rfl, rfl⟩, ⟨rfl, rfl, rfl, rfl, rfl⟩, rfl, rfl, rfl, rfl⟩

theorem threeParts_whole : NumberedWhole threeParts := by
  have key : ∀ x ∈ threeParts, ∀ y ∈ x.gap ++ (x.clump.before.items ++ x.clump.after.items),
      ∃ a ∈ ['a', 'N', 'b', 'c', 'd', 'e', 'X', 'Y', 'p', 'q', 'Q', 'S', 'r', 'g', 'h', 'i', 'Z', 'W', 'j', 's', 't', 'u', 'T', 'V'], y = ln a := by
    decide +kernel
  have whole : ∀ a ∈ ['a', 'N', 'b', 'c', 'd', 'e', 'X', 'Y', 'p', 'q', 'Q', 'S', 'r', 'g', 'h', 'i', 'Z', 'W', 'j', 's', 't', 'u', 'T', 'V'],
      WholeLine (ln a) := by
    intro a ha
    refine ⟨[a], rfl, ?_⟩
    revert a
    decide
  intro x hx
  refine ⟨fun y hy => ?_, fun y hy => ?_⟩
  · obtain ⟨a, ha, rfl⟩ := key x hx y (List.mem_append_left _ hy)
    exact whole a ha
  · obtain ⟨a, ha, rfl⟩ := key x hx y (List.mem_append_right _ hy)
    exact whole a ha

/-- The files for the situations: `A` is the file, and `C`, `D` and `E` are the patches. -/
theorem numbered_files (parts : List (Numbered Str)) (t : Str) (hr : ∀ k ∈ [0, 1, 2], ∀ c ∈ clumpsNumbered k parts, c.InRange) : ∃ fs : FS, fs.node (fs.entry [84]) = none ∧
    fs.node (fs.entry [65]) = some (.file (bytesOf (withDone [] parts (splitInclusive t)))) ∧
    ∀ k ∈ [0, 1, 2], fs.node (fs.entry [67 + k.toUInt8]) =
        some (.file (Diff.textChange ⟨[65], [66], clumpsNumbered k parts⟩).fileContent) ∧
      Diff.fromReader ⟨(Diff.textChange ⟨[65], [66], clumpsNumbered k parts⟩).fileContent, false⟩ =
        .ok (.textChange ⟨[65], [66], clumpsNumbered k parts⟩) ∧
      fs.entry [67 + k.toUInt8] ≠ fs.entry [65] := by
  obtain ⟨⟨e1, e2, e3, e4, e5⟩, ⟨n1, n2, n3, n4, n5⟩, c1, c2, c3, c4⟩ := FS.ofFiles_target_three (bytesOf (withDone [] parts (splitInclusive t)))
    (Diff.textChange ⟨[65], [66], clumpsNumbered 0 parts⟩).fileContent (Diff.textChange ⟨[65], [66], clumpsNumbered 1 parts⟩).fileContent
    (Diff.textChange ⟨[65], [66], clumpsNumbered 2 parts⟩).fileContent
  generalize FS.ofFiles [([65], _), ([67], _), ([68], _), ([69], _)] = fs at *
  have read : ∀ (path : Path) (k : Nat), k ∈ [0, 1, 2] →
      fs.contentAt path = some ⟨(Diff.textChange ⟨[65], [66], clumpsNumbered k parts⟩).fileContent, false⟩ →
      Diff.fromReader ⟨(Diff.textChange ⟨[65], [66], clumpsNumbered k parts⟩).fileContent, false⟩ =
        .ok (.textChange ⟨[65], [66], clumpsNumbered k parts⟩) := by
    intro path k hk hc
    have : HoldsDiff fs path (.textChange ⟨[65], [66], clumpsNumbered k parts⟩) := by
      refine holdsDiff_of_file ?_ ?_ hc
      · exact hr k hk
      · intro path h
        simp only [Diff.paths, List.mem_cons, List.not_mem_nil, or_false] at h
        rcases h with rfl | rfl
        · exact ⟨['A'], by decide⟩
        · exact ⟨['B'], by decide⟩
    obtain ⟨r, hr1, hr2⟩ := this
    obtain rfl := Option.some.inj (hc.symm.trans hr1)
    exact hr2
  refine ⟨fs, by rw [e5, n5], by rw [e1, n1], fun k hk => ?_⟩
  simp only [List.mem_cons, List.not_mem_nil, or_false] at hk
  rcases hk with rfl | rfl | rfl
  · exact ⟨by rw [← n2, ← e2]; rfl, read [67] 0 (by simp) c2, by show fs.entry [67] ≠ fs.entry [65]; rw [e1, e2]; decide⟩
  · exact ⟨by rw [← n3, ← e3]; rfl, read [68] 1 (by simp) c3, by show fs.entry [68] ≠ fs.entry [65]; rw [e1, e3]; decide⟩
  · exact ⟨by rw [← n4, ← e4]; rfl, read [69] 2 (by simp) c4, by show fs.entry [69] ≠ fs.entry [65]; rw [e1, e4]; decide⟩

theorem threeParts_range : ∀ k ∈ [0, 1, 2], ∀ c ∈ clumpsNumbered k threeParts, c.InRange := by
  intro k hk c hc
  simp only [List.mem_cons, List.not_mem_nil, or_false] at hk
  rcases hk with rfl | rfl | rfl <;> simp [clumpsNumbered, threeParts] at hc
  · rcases hc with rfl | rfl <;> simp [DiffClump.InRange, wordSize]
  · subst hc; simp [DiffClump.InRange, wordSize]
  · subst hc; simp [DiffClump.InRange, wordSize]

/-- The three patches are applied in this order or in the opposite one. -/
example (q : Profile) : ∃ w v : World, RunInTurn q [84] (fun k => [67 + k.toUInt8]) [0, 1, 2] w v ∧
    RunInTurn q [84] (fun k => [67 + k.toUInt8]) [2, 1, 0] w v ∧
    w.fs.contentAt [65] = some ⟨bytesOf (withDone [] threeParts (letters ['k', 'l'])), false⟩ ∧
    v.fs.contentAt [65] = some ⟨bytesOf (withDone [0, 1, 2] threeParts (letters ['k', 'l'])), false⟩ := by
  obtain ⟨fs, hfree, hold, hfiles⟩ := numbered_files threeParts "k\nl\n".toList threeParts_range
  have et : splitInclusive "k\nl\n".toList = letters ['k', 'l'] := by decide +kernel
  have run : ∀ ks : List Nat, (∀ k ∈ ks, k ∈ [0, 1, 2]) → LocatedInTurn threeParts (letters ['k', 'l']) [] ks →
      RunInTurn q [84] (fun k => [67 + k.toUInt8]) ks ⟨fs, [], []⟩
        ⟨fs.set (fs.entry [65]) (some (.file (bytesOf (withDone (ks.reverse ++ []) threeParts (letters ['k', 'l']))))), [], []⟩ := by
    intro ks hks hl
    have := C151_program q [84] [65] (fun k => [67 + k.toUInt8]) (fun k => ⟨[65], [66], clumpsNumbered k threeParts⟩)
      (fun k => (Diff.textChange ⟨[65], [66], clumpsNumbered k threeParts⟩).fileContent) threeParts "k\nl\n".toList threeParts_whole ks []
      ⟨fs, [], []⟩ rfl (fun k hk => ⟨(hfiles k (hks k hk)).1, (hfiles k (hks k hk)).2.1, rfl, rfl, (hfiles k (hks k hk)).2.2⟩) hfree hold
      (by rw [et]; exact fun k hk => threeParts_diffs k (hks k hk)) (by rw [et]; exact hl)
    rw [et] at this
    exact this
  have r1 := run [0, 1, 2] (by simp) threeParts_up
  have r2 := run [2, 1, 0] (by simp) threeParts_down
  rw [withDone_congr (done := [0, 1, 2].reverse ++ []) (done' := [0, 1, 2]) (by intro k; simp; omega)] at r1
  rw [withDone_congr (done := [2, 1, 0].reverse ++ []) (done' := [0, 1, 2]) (by simp)] at r2
  rw [et] at hold
  exact ⟨_, _, r1, r2, FS.contentAt_of_file hold, FS.contentAt_of_file (by simp)⟩

end PwDiff
