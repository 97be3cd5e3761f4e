import Verif.Props.History

/-! # C153: patches of one clump each -/

namespace PwDiff

section

variable {T : Type}

/-- All lines, those of the file before and after the patches. -/
def allLines : List (Numbered T) → List T → List T
  | [], last => last
  | x :: parts, last => x.gap ++ x.clump.before.items ++ x.clump.after.items ++ allLines parts last

/-- A patch is applied only if it is not, and taken back only if it is. -/
def ByTurns : List Nat → List (Nat × Bool) → Prop
  | _, [] => True
  | done, (k, false) :: runs => k ∉ done ∧ ByTurns (k :: done) runs
  | done, (k, true) :: runs => k ∈ done ∧ ByTurns (done.filter (· != k)) runs

theorem mem_withDone {done : List Nat} {parts : List (Numbered T)} {x : Numbered T} (hx : x ∈ parts) (last : List T) {y : T}
    (hy : y ∈ (sideOf (done.contains x.owner) x.clump).items) : y ∈ withDone done parts last := by
  induction parts with
  | nil => cases hx
  | cons z parts ih =>
    rw [withDone]
    rcases List.mem_cons.1 hx with rfl | hx
    · exact List.mem_append_left _ (List.mem_append_right _ hy)
    · exact List.mem_append_right _ (ih hx)

theorem length_allLines (parts : List (Numbered T)) (last : List T) : (allLines parts last).length = linesInAll parts last := by
  induction parts with
  | nil => rfl
  | cons x parts ih => simp only [allLines, linesInAll, List.length_append, ih]

theorem clumpsNumbered_one {parts : List (Numbered T)} (hone : (parts.map (·.owner)).Nodup) (k : Nat) : (clumpsNumbered k parts).length ≤ 1 := by
  unfold clumpsNumbered
  rw [List.length_map]
  induction parts with
  | nil => simp
  | cons x parts ih =>
    rw [List.map_cons, List.nodup_cons] at hone
    rw [List.filter_cons]
    split
    · rename_i h
      have h : x.owner = k := by simpa using h
      have : parts.filter (·.owner == k) = [] := by
        rw [List.filter_eq_nil_iff]
        intro z hz hk
        have hk : z.owner = k := by simpa using hk
        exact hone.1 (List.mem_map.2 ⟨z, hz, hk.trans h.symm⟩)
      rw [this]
      exact Nat.le_refl 1
    · exact ih hone.2

theorem mem_clumpsNumbered {parts : List (Numbered T)} {k : Nat} {c : DiffClump T} (h : c ∈ clumpsNumbered k parts) :
    ∃ x ∈ parts, x.owner = k ∧ x.clump = c := by
  unfold clumpsNumbered at h
  obtain ⟨x, hx, rfl⟩ := List.mem_map.1 h
  obtain ⟨hx, hk⟩ := List.mem_filter.1 hx
  exact ⟨x, hx, by simpa using hk, rfl⟩

end

section

variable {T : Type} [DecidableEq T] [Item T] [LawfulItem T]

omit [Item T] [LawfulItem T] in
theorem count_withDone (y : T) (done : List Nat) (parts : List (Numbered T)) (last : List T) :
    (withDone done parts last).count y ≤ (allLines parts last).count y := by
  induction parts with
  | nil => exact Nat.le_refl _
  | cons x parts ih =>
    simp only [withDone, allLines, List.count_append]
    cases done.contains x.owner <;> simp only [sideOf] <;> omega

/-- Each patch has one clump, with some context; the clump removes a line and adds a line that are nowhere else. -/
structure Separate (parts : List (Numbered T)) (last : List T) : Prop where
  one : (parts.map (·.owner)).Nodup
  context : ∀ x ∈ parts, 0 < x.clump.contextLengths.1 + x.clump.contextLengths.2
  removes : ∀ x ∈ parts, ChangesUnique (allLines parts last) x.clump
  adds : ∀ x ∈ parts, ChangesUnique (allLines parts last) x.clump.swap

omit [Item T] [LawfulItem T] in
theorem Separate.within {parts : List (Numbered T)} {last : List T} (h : Separate parts last) {k : Nat} {done : List Nat} (hk : k ∉ done) :
    WithinSearch DiffClump.before (withDone done parts last) 0 0 (forNumber k done [] parts) := by
  obtain ⟨e1, e2, -⟩ := forNumber_spec k done hk [] parts last
  rw [List.nil_append] at e2
  rw [← e2]
  have hlen := clumpsNumbered_one h.one k
  have hmem : ∀ c ∈ clumpsNumbered k parts, 0 < c.contextLengths.1 + c.contextLengths.2 ∧ 0 < c.before.items.length := by
    intro c hc
    obtain ⟨x, hx, -, rfl⟩ := mem_clumpsNumbered hc
    obtain ⟨y, hy, -⟩ := h.removes x hx
    refine ⟨h.context x hx, List.length_pos_of_mem (a := y) ?_⟩
    unfold trim at hy
    exact List.mem_of_mem_take (List.mem_of_mem_drop hy)
  rw [← e1] at hlen hmem
  revert hlen hmem
  generalize forNumber k done [] parts = own
  intro hlen hmem
  match own, hlen with
  | [], _ => trivial
  | [(gap, c)], _ =>
    obtain ⟨h1, h2⟩ := hmem c (by simp)
    refine ⟨fun _ => ?_, trivial⟩
    simp only [searchLimit, searchRoom, coreLen, List.head?_nil, Option.map_none, woven, List.length_append]
    omega

omit [Item T] [LawfulItem T] in
theorem Separate.located {parts : List (Numbered T)} {last : List T} (h : Separate parts last) (runs : List (Nat × Bool)) (done : List Nat)
    (ht : ByTurns done runs) : LocatedRuns parts last done runs := by
  have once : ∀ (c : DiffClump T) (x : Numbered T) (done : List Nat), x ∈ parts → c.contextLengths = x.clump.contextLengths →
      c.before = sideOf (done.contains x.owner) x.clump → ChangesUnique (allLines parts last) c → ChangesUnique (withDone done parts last) c := by
    rintro c x done hx - e ⟨y, hy, h1⟩
    refine ⟨y, hy, ?_⟩
    have hm : y ∈ c.before.items := by
      unfold trim at hy
      exact List.mem_of_mem_take (List.mem_of_mem_drop hy)
    rw [e] at hm
    have := List.count_pos_iff.2 (mem_withDone hx last hm)
    have := count_withDone y done parts last
    omega
  induction runs generalizing done with
  | nil => trivial
  | cons x runs ih =>
    obtain ⟨k, back⟩ := x
    cases back
    · obtain ⟨hk, ht⟩ := ht
      refine ⟨hk, fun c hc => ?_, h.within hk, ih _ ht⟩
      obtain ⟨x, hx, rfl, rfl⟩ := mem_clumpsNumbered hc
      exact once _ x done hx rfl (by simp [sideOf, hk]) (h.removes x hx)
    · obtain ⟨hk, ht⟩ := ht
      refine ⟨hk, fun c hc => ?_, h.within (by simp), ih _ ht⟩
      obtain ⟨x, hx, rfl, rfl⟩ := mem_clumpsNumbered hc
      exact once _ x done hx rfl (by simp [sideOf, hk, DiffClump.swap]) (h.adds x hx)

omit [LawfulItem T] in
theorem Separate.made {parts : List (Numbered T)} {last : List T} (hs : Separate parts last)
    (hd : ∀ x ∈ parts, ∃ (p : Profile) (before after : List T) (context : Nat), context ≤ 255 ∧
      diffClumps p before after context = .ok [x.clump] ∧ before.length + after.length + (allLines parts last).length ≤ maxLines)
    (runs : List (Nat × Bool)) (hr : ∀ x ∈ runs, ∃ y ∈ parts, y.owner = x.1) :
    ∀ x ∈ runs, ∃ (p : Profile) (before after : List T) (context : Nat), context ≤ 255 ∧
      diffClumps p before after context = .ok (clumpsNumbered x.1 parts) ∧ before.length + after.length + linesInAll parts last ≤ maxLines := by
  intro x hx
  obtain ⟨y, hy, e⟩ := hr x hx
  obtain ⟨p, before, after, context, h1, h2, h3⟩ := hd y hy
  have : clumpsNumbered x.1 parts = [y.clump] := by
    have hm : y.clump ∈ clumpsNumbered x.1 parts := by
      unfold clumpsNumbered
      exact List.mem_map_of_mem (List.mem_filter.2 ⟨hy, by simpa using e⟩)
    match h : clumpsNumbered x.1 parts, clumpsNumbered_one hs.one x.1 with
    | [], _ => rw [h] at hm; cases hm
    | [c], _ => rw [h] at hm; rw [List.mem_singleton.1 hm]
  exact ⟨p, before, after, context, h1, by rw [this, h2], by rw [← length_allLines]; exact h3⟩

/-- Any number of patches of one clump each, made with some context from whatever files, and a file in which the old lines of all the clumps
are, with any lines between them; each clump removes a line and adds a line that are nowhere else. They can be applied and taken back in any
order, any number of times. No clump ever fails or is found to be applied already, and the file depends only on which patches are applied. -/
theorem C153_any (q : Profile) (parts : List (Numbered T)) (last : List T) (hs : Separate parts last)
    (hd : ∀ x ∈ parts, ∃ (p : Profile) (before after : List T) (context : Nat), context ≤ 255 ∧
      diffClumps p before after context = .ok [x.clump] ∧ before.length + after.length + (allLines parts last).length ≤ maxLines)
    (runs : List (Nat × Bool)) (hr : ∀ x ∈ runs, ∃ y ∈ parts, y.owner = x.1) (done : List Nat) (ht : ByTurns done runs) :
    RunsGive q (clumpsNumbered · parts) runs (withDone done parts last) (withDone (doneAfter done runs) parts last) := by
  exact C152_runs q parts last runs done (hs.made hd runs hr) (hs.located runs done ht)

end

/-- The same of `pw_patch`: all runs end with exit status 0, and but for the file everything is as it was. -/
theorem C153_program (q : Profile) (temp target : Path) (patch : Nat → Path) (d : Nat → TextChangeDiff) (content : Nat → List UInt8)
    (parts : List (Numbered Str)) (t : Str) (hw : NumberedWhole parts) (hs : Separate parts (splitInclusive t))
    (hd : ∀ x ∈ parts, ∃ (p : Profile) (before after : List Str) (context : Nat), context ≤ 255 ∧
      diffClumps p before after context = .ok [x.clump] ∧ before.length + after.length + (allLines parts (splitInclusive t)).length ≤ maxLines)
    (runs : List (Nat × Bool)) (hr : ∀ x ∈ runs, ∃ y ∈ parts, y.owner = x.1) (done : List Nat) (ht : ByTurns done runs) (w : World)
    (hf : w.faults = [])
    (hp : ∀ x ∈ runs, w.fs.node (w.fs.entry (patch x.1)) = some (.file (content x.1)) ∧
      Diff.fromReader ⟨content x.1, false⟩ = .ok (.textChange (d x.1)) ∧ (d x.1).beforePath = target ∧
      (d x.1).clumps = clumpsNumbered x.1 parts ∧ w.fs.entry (patch x.1) ≠ w.fs.entry target)
    (hfree : w.fs.node (w.fs.entry temp) = none)
    (hold : w.fs.node (w.fs.entry target) = some (.file (bytesOf (withDone done parts (splitInclusive t))))) :
    RunsLeave q temp patch runs w
      { w with fs := w.fs.set (w.fs.entry target) (some (.file (bytesOf (withDone (doneAfter done runs) parts (splitInclusive t))))) } :=
  C152_program q temp target patch d content parts t hw runs done w hf hp hfree hold (hs.made hd runs hr) (hs.located runs done ht)

/-- The patches of C151, the first with one clump only. -/
def sepParts : List (Numbered Str) :=
  [⟨letters ['a', 'N', 'b'], ⟨(1, 1), ⟨2, letters ['c', 'd', 'e']⟩, ⟨2, letters ['c', 'X', 'Y', 'e']⟩⟩, 0⟩,
   ⟨[], ⟨(1, 1), ⟨0, letters ['p', 'q', 'r']⟩, ⟨0, letters ['p', 'Q', 'S', 'r']⟩⟩, 1⟩,
   ⟨letters ['j'], ⟨(1, 1), ⟨0, letters ['s', 't', 'u']⟩, ⟨0, letters ['s', 'T', 'V', 'u']⟩⟩, 2⟩]

theorem sepParts_separate : Separate sepParts [] := ⟨by decide +kernel, by decide +kernel, by decide +kernel, by decide +kernel⟩

theorem sepParts_diffs : ∀ x ∈ sepParts, ∃ (p : Profile) (before after : List Str) (context : Nat), context ≤ 255 ∧
    diffClumps p before after context = .ok [x.clump] ∧ before.length + after.length + (allLines sepParts []).length ≤ maxLines := by
  intro x hx
  simp only [sepParts, List.mem_cons, List.not_mem_nil, or_false] at hx
  rcases hx with rfl | rfl | rfl
  · exact ⟨.debug, letters ['a', 'b', 'c', 'd', 'e'], letters ['a', 'b', 'c', 'X', 'Y', 'e'], 1, by decide, by decide +kernel, by decide +kernel⟩
  · exact ⟨.debug, letters ['p', 'q', 'r'], letters ['p', 'Q', 'S', 'r'], 1, by decide, by decide +kernel, by decide +kernel⟩
  · exact ⟨.debug, letters ['s', 't', 'u'], letters ['s', 'T', 'V', 'u'], 1, by decide, by decide +kernel, by decide +kernel⟩

example (q : Profile) (runs : List (Nat × Bool)) (hr : ∀ x ∈ runs, x.1 < 3) (ht : ByTurns [] runs) :=
  C153_any q sepParts [] sepParts_separate sepParts_diffs runs (fun x hx => by
    have : ∀ k < 3, ∃ y ∈ sepParts, y.owner = k := by decide
    exact this x.1 (hr x hx)) [] ht

example : ByTurns [] sixRuns := by simp [ByTurns, sixRuns]

theorem sepParts_whole : NumberedWhole sepParts := by
  have key : ∀ x ∈ sepParts, ∀ y ∈ x.gap ++ (x.clump.before.items ++ x.clump.after.items),
      ∃ a ∈ ['a', 'N', 'b', 'c', 'd', 'e', 'X', 'Y', 'p', 'q', 'Q', 'S', 'r', 'j', 's', 't', 'u', 'T', 'V'], y = ln a := by
    decide +kernel
  have whole : ∀ a ∈ ['a', 'N', 'b', 'c', 'd', 'e', 'X', 'Y', 'p', 'q', 'Q', 'S', 'r', 'j', 's', 't', 'u', 'T', 'V'], WholeLine (ln a) := by
    intro a ha
    refine ⟨[a], rfl, ?_⟩
    revert a
    decide
  intro x hx
  refine ⟨fun y hy => ?_, fun y hy => ?_⟩
  · obtain ⟨a, ha, rfl⟩ := key x hx y (List.mem_append_left _ hy)
    exact whole a ha
  · obtain ⟨a, ha, rfl⟩ := key x hx y (List.mem_append_right _ hy)
    exact whole a ha

theorem sepParts_range : ∀ k ∈ [0, 1, 2], ∀ c ∈ clumpsNumbered k sepParts, c.InRange := by
  intro k hk c hc
  simp only [List.mem_cons, List.not_mem_nil, or_false] at hk
  rcases hk with rfl | rfl | rfl <;> simp [clumpsNumbered, sepParts] at hc <;> subst hc <;> simp [DiffClump.InRange, wordSize]

/-- The situation, whatever the runs. -/
example (q : Profile) : ∃ w : World, w.fs.contentAt [65] = some ⟨bytesOf (withDone [] sepParts []), false⟩ ∧
    ∀ runs : List (Nat × Bool), (∀ x ∈ runs, x.1 ∈ [0, 1, 2]) → ByTurns [] runs → ∃ v, RunsLeave q [84] (fun k => [67 + k.toUInt8]) runs w v ∧
      v.fs.contentAt [65] = some ⟨bytesOf (withDone (doneAfter [] runs) sepParts []), false⟩ := by
  obtain ⟨fs, hfree, hold, hfiles⟩ := numbered_files sepParts [] sepParts_range
  refine ⟨⟨fs, [], []⟩, FS.contentAt_of_file hold, fun runs hk ht => ⟨_, C153_program q [84] [65] (fun k => [67 + k.toUInt8])
    (fun k => ⟨[65], [66], clumpsNumbered k sepParts⟩) (fun k => (Diff.textChange ⟨[65], [66], clumpsNumbered k sepParts⟩).fileContent) sepParts []
    sepParts_whole sepParts_separate sepParts_diffs runs (fun x hx => ?_) [] ht ⟨fs, [], []⟩ rfl
    (fun x hx => ⟨(hfiles _ (hk x hx)).1, (hfiles _ (hk x hx)).2.1, rfl, rfl, (hfiles _ (hk x hx)).2.2⟩) hfree hold,
    FS.contentAt_of_file (by simp; rfl)⟩⟩
  have : ∀ k ∈ [0, 1, 2], ∃ y ∈ sepParts, y.owner = k := by decide
  exact this x.1 (hk x hx)

/-- What one may expect: the context is not needed. -/
def C153_statement : Prop :=
  ∀ (p q : Profile) (before after gap last : List Str) (c : DiffClump Str), diffClumps p before after 0 = .ok [c] →
    ChangesUnique (gap ++ c.before.items ++ c.after.items ++ last) c → ChangesUnique (gap ++ c.before.items ++ c.after.items ++ last) c.swap →
    (applyInto q [c] (gap ++ c.before.items ++ last) false).run.2 = bytesOf (gap ++ c.after.items ++ last)

/-- That is not so: a clump without context at the end of a file that has become longer is not found. -/
theorem C153_refuted : ¬ C153_statement := by
  intro h
  have hx := h .debug .release (letters ['b']) (letters ['X']) (letters ['a']) [] ⟨(0, 0), ⟨0, letters ['b']⟩, ⟨0, letters ['X']⟩⟩
    (by decide +kernel) (by decide +kernel) (by decide +kernel)
  revert hx
  decide +kernel

end PwDiff
