import Verif.Proofs.Stretch

/-! # C15, C16, C19–C23: clumps of a diff -/

namespace PwDiff

variable {T : Type} [DecidableEq T] [Item T] [LawfulItem T]

/-- `Changes::new(before, after).change_clumps(context).collect()`. -/
def clumpsOf (p : Profile) (before after : List T) (context : Nat) : Outcome (List ChangeClump) := do
  let changes ← changesOf p before after
  changeClumps context changes

theorem clumpsOf_spec (p : Profile) (before after : List T) (ctx : Nat) {changes : List Change} {ccs : List ChangeClump}
    (h1 : changesOf p before after = .ok changes) (h2 : clumpsOf p before after ctx = .ok ccs) :
    CollectSpec ctx changes 0 0 before.length after.length changes ccs ∧
      Synced (Skip changes) 0 0 (ccs.map ChangeClump.ranges) before.length after.length ∧
      diffClumps p before after ctx = .ok (ccs.map (toDiffClump before after)) := by
  obtain ⟨changes', ccs', e1, e2, e3, e4, e5⟩ := diffClumps_spec p before after ctx
  obtain rfl := Outcome.ok_inj (e1.symm.trans h1)
  unfold clumpsOf at h2
  rw [h1] at h2
  obtain rfl := Outcome.ok_inj (e2.symm.trans h2)
  exact ⟨e3, e4, e5⟩

theorem clumpsOf_changes {p : Profile} {before after : List T} {ctx : Nat} {ccs : List ChangeClump}
    (_h2 : clumpsOf p before after ctx = .ok ccs) : ∃ changes, changesOf p before after = .ok changes := by
  obtain ⟨changes', ccs', e1, -⟩ := diffClumps_spec p before after ctx
  exact ⟨_, e1⟩

/-- An input pair used in the examples below: with context 1 it gives two clumps. -/
def sampleBefore : List UInt8 := [1, 2, 3, 4, 5, 6, 7]
def sampleAfter : List UInt8 := [1, 3, 4, 5, 6, 7, 8]

example : changesOf .debug sampleBefore sampleAfter =
    .ok [.noChange ⟨0, 0, 1⟩, .delete ⟨1, 2⟩ 1, .noChange ⟨2, 1, 5⟩, .insert 7 ⟨6, 7⟩] := by decide +kernel

example : clumpsOf .debug sampleBefore sampleAfter 1 =
    .ok [⟨[.noChange ⟨0, 0, 1⟩, .delete ⟨1, 2⟩ 1, .noChange ⟨2, 1, 1⟩]⟩,
         ⟨[.noChange ⟨6, 5, 1⟩, .insert 7 ⟨6, 7⟩]⟩] := by decide +kernel

/-! ## C15 -/

/-- Without real changes there are no clumps. -/
theorem clumpsOf_noReals (p : Profile) (before after : List T) (context : Nat) {changes : List Change}
    (h : changesOf p before after = .ok changes) (hr : reals changes = []) :
    clumpsOf p before after context = .ok [] ∧ diffClumps p before after context = .ok [] := by
  obtain ⟨changes', ccs', e1, e2, e3, e4, e5⟩ := diffClumps_spec p before after context
  obtain rfl := Outcome.ok_inj (e1.symm.trans h)
  have : ccs' = [] := by
    cases ccs' with
    | nil => rfl
    | cons c ccs =>
      have h1 := (e3.each c (by simp)).real
      have h2 := e3.sameReals
      rw [hr] at h2
      simp at h2
      exact absurd h2.1 h1
  subst this
  refine ⟨?_, by simpa using e5⟩
  unfold clumpsOf
  rw [e1]
  exact e2

/-- A sequence against itself has no clumps, whatever the context. -/
theorem C15_no_clumps (p : Profile) (l : List T) (context : Nat) : clumpsOf p l l context = .ok [] :=
  (clumpsOf_noReals p l l context (changesOf_self p l) (by split <;> simp [reals, Change.isNoChange])).1

/-! ## C16 -/

/-- The full statement of C16. -/
def C16_statement : Prop :=
  ∀ (p : Profile) (before after : List UInt8) (context : Nat), context ≤ 255 →
    diffClumps p before after context = .ok [] → before = after

/-- It fails: the diff of `[1,2,3]` and `[1,9,3]` is empty. -/
theorem C16_refuted : ¬ C16_statement := by
  intro h
  have := h .debug [1, 2, 3] [1, 9, 3] 3 (by decide) (by decide +kernel)
  revert this
  decide

/-- What holds: inputs with an empty diff have the same length; they are identical if there is no single differing pair
between two equal pairs. -/
theorem C16_partial (p : Profile) (before after : List T) (context : Nat)
    (h : diffClumps p before after context = .ok []) :
    before.length = after.length ∧ (NoIsland before after → before = after) := by
  obtain ⟨changes, ccs, e1, e2, e3, e4, e5⟩ := diffClumps_spec p before after context
  have hn : ccs = [] := by
    have := Outcome.ok_inj (e5.symm.trans h)
    simpa using this
  subst hn
  obtain ⟨n, h1, h2, h3⟩ := e4
  refine ⟨by omega, ?_⟩
  intro hi
  rcases h3 with h3 | ⟨c, hc, h3⟩
  · simp only at h3
    have l1 : before.length = 0 := by omega
    have l2 : after.length = 0 := by omega
    rw [List.length_eq_zero_iff.1 l1, List.length_eq_zero_iff.1 l2]
  · obtain ⟨k1, k2, k3⟩ := h3
    simp only at k1 k2 k3
    have hcut := (changes_noIsland p before after changes hi e1) c hc
    have hb := tiles_noChange_bounds (changes_tiles p before after changes e1) c hc
    have hcb : c.b = 0 := by omega
    have hca : c.a = 0 := by omega
    have hcn : c.n = before.length := by omega
    rw [hcb, hca, hcn, Nat.zero_add] at hcut
    rw [cut_full] at hcut
    rw [hcut, show before.length = after.length by omega, cut_full]

example : diffClumps .debug ([4, 5] : List UInt8) [4, 5] 3 = .ok [] ∧ diffClumps .debug ([] : List UInt8) [] 0 = .ok [] := by
  decide +kernel
example : NoIsland ([4, 5] : List UInt8) [4, 5] := noIsland_of_check (by decide +kernel)

/-! ## C19 -/

/-- Grouping is total, keeps every real change, in order, exactly once, and makes no clump without one. -/
theorem C19_clumps (p : Profile) (before after : List T) (context : Nat) :
    ∃ changes ccs, changesOf p before after = .ok changes ∧ clumpsOf p before after context = .ok ccs ∧
      ccs.flatMap (fun c => reals c.changes) = reals changes ∧ ∀ c ∈ ccs, reals c.changes ≠ [] := by
  obtain ⟨changes, ccs, e1, e2, e3, e4, e5⟩ := diffClumps_spec p before after context
  refine ⟨changes, ccs, e1, ?_, e3.sameReals, fun c hc => (e3.each c hc).real⟩
  unfold clumpsOf
  rw [e1]; exact e2

/-! ## C20 -/

/-- The clumps are ordered, disjoint, inside the files, and what lies between them is equally long on both sides and
belongs to an unchanged block. -/
theorem C20_synced (p : Profile) (before after : List T) (context : Nat) (changes : List Change) (ccs : List ChangeClump)
    (h1 : changesOf p before after = .ok changes) (h2 : clumpsOf p before after context = .ok ccs) :
    Synced (fun g => g.n = 0 ∨ ∃ c, .noChange c ∈ changes ∧ SubBlock g c) 0 0 (ccs.map ChangeClump.ranges)
      before.length after.length :=
  (clumpsOf_spec p before after context h1 h2).2.1

example := C20_synced .debug sampleBefore sampleAfter 1 [.noChange ⟨0, 0, 1⟩, .delete ⟨1, 2⟩ 1, .noChange ⟨2, 1, 5⟩, .insert 7 ⟨6, 7⟩]
  [⟨[.noChange ⟨0, 0, 1⟩, .delete ⟨1, 2⟩ 1, .noChange ⟨2, 1, 1⟩]⟩, ⟨[.noChange ⟨6, 5, 1⟩, .insert 7 ⟨6, 7⟩]⟩]
  (by decide +kernel) (by decide +kernel)

/-! ## C21 -/

/-- The recorded context lengths: the true ones, at most the requested context, and both fit into the clump. -/
theorem C21_context (p : Profile) (before after : List T) (context : Nat) (hctx : context ≤ 255) (ccs : List ChangeClump)
    (h : clumpsOf p before after context = .ok ccs) (cc : ChangeClump) (hcc : cc ∈ ccs) :
    (∀ m rest, cc.changes = .noChange m :: rest → cc.contextLengths.1 = m.n) ∧
    (∀ m init, cc.changes = init ++ [.noChange m] → cc.contextLengths.2 = m.n) ∧
    cc.contextLengths.1 ≤ context ∧ cc.contextLengths.2 ≤ context ∧
    cc.ranges.1.start + cc.contextLengths.1 + cc.contextLengths.2 ≤ cc.ranges.1.fin ∧
    cc.ranges.2.start + cc.contextLengths.1 + cc.contextLengths.2 ≤ cc.ranges.2.fin := by
  obtain ⟨changes, hch⟩ := clumpsOf_changes h
  obtain ⟨e3, -, -⟩ := clumpsOf_spec p before after context hch h
  have hok := e3.each cc hcc
  obtain ⟨i, j, ie, je, ht⟩ := e3.cover.mem cc hcc
  obtain ⟨k1, k2, k3, k4⟩ := clump_context hctx hok ht
  rw [ht.ranges hok.ne_nil]
  refine ⟨?_, ?_, k2, k3, k4⟩
  · intro m rest hm
    rw [k1, hm]; rfl
  · intro m init hm
    rw [k1, hm]; simp [ChangeClump.contextOf, CommonSubsequence.len]

example := C21_context .debug sampleBefore sampleAfter 1 (by decide)
  [⟨[.noChange ⟨0, 0, 1⟩, .delete ⟨1, 2⟩ 1, .noChange ⟨2, 1, 1⟩]⟩, ⟨[.noChange ⟨6, 5, 1⟩, .insert 7 ⟨6, 7⟩]⟩] (by decide +kernel)
  ⟨[.noChange ⟨6, 5, 1⟩, .insert 7 ⟨6, 7⟩]⟩ (by decide)

/-! ## C59 -/

/-- Every clump is a stretch of the change list from a real change to a real change (see `IsStretch`), with exactly the
context requested, or all there is of it. -/
theorem C59_stretches (p : Profile) (before after : List T) (context : Nat) (changes : List Change) (ccs : List ChangeClump)
    (h1 : changesOf p before after = .ok changes) (h2 : clumpsOf p before after context = .ok ccs) :
    ∀ cc ∈ ccs, IsStretch context changes cc.changes := by
  have halt := (changes_proper h1).2
  unfold clumpsOf at h2
  rw [h1] at h2
  exact changeClumps_stretch context changes halt ccs h2

/-- The stretch of the second clump of the sample. -/
example : IsStretch 1 [.noChange ⟨0, 0, 1⟩, .delete ⟨1, 2⟩ 1, .noChange ⟨2, 1, 5⟩, .insert 7 ⟨6, 7⟩]
    [.noChange ⟨6, 5, 1⟩, .insert 7 ⟨6, 7⟩] :=
  C59_stretches .debug sampleBefore sampleAfter 1 _
    [⟨[.noChange ⟨0, 0, 1⟩, .delete ⟨1, 2⟩ 1, .noChange ⟨2, 1, 1⟩]⟩, ⟨[.noChange ⟨6, 5, 1⟩, .insert 7 ⟨6, 7⟩]⟩]
    (by decide +kernel) (by decide +kernel) ⟨[.noChange ⟨6, 5, 1⟩, .insert 7 ⟨6, 7⟩]⟩ (by simp)

/-! ## C22 -/

/-- Making patch clumps is total and stores exactly the slices of the two files. -/
theorem C22_slices (p : Profile) (before after : List T) (context : Nat) (ccs : List ChangeClump)
    (h : clumpsOf p before after context = .ok ccs) :
    diffClumps p before after context = .ok (ccs.map fun cc =>
      { contextLengths := cc.contextLengths
        before := ⟨cc.ranges.1.start, cut before cc.ranges.1.start cc.ranges.1.fin⟩
        after := ⟨cc.ranges.2.start, cut after cc.ranges.2.start cc.ranges.2.fin⟩ }) := by
  obtain ⟨changes, hch⟩ := clumpsOf_changes h
  exact (clumpsOf_spec p before after context hch h).2.2

example : diffClumps .debug sampleBefore sampleAfter 1 =
    .ok [⟨(1, 1), ⟨0, [1, 2, 3]⟩, ⟨0, [1, 3]⟩⟩, ⟨(1, 0), ⟨6, [7]⟩, ⟨5, [7, 8]⟩⟩] := by decide +kernel

/-! ## C23

False of the code: `ChangeClump::before_end` (changes.rs:387-393) looks at the first change of the clump. -/

/-- The full statement of C23. -/
def C23_statement : Prop :=
  ∀ (p : Profile) (before after : List UInt8) (context : Nat) (ccs : List ChangeClump), context ≤ 255 →
    clumpsOf p before after context = .ok ccs → ∀ cc ∈ ccs,
      ChangeBasics.beforeRange p cc none false = .ok cc.ranges.1 ∧ ChangeBasics.afterRange p cc none false = .ok cc.ranges.2

theorem C23_refuted : ¬ C23_statement := by
  intro h
  have := (h .debug sampleBefore sampleAfter 1
    [⟨[.noChange ⟨0, 0, 1⟩, .delete ⟨1, 2⟩ 1, .noChange ⟨2, 1, 1⟩]⟩, ⟨[.noChange ⟨6, 5, 1⟩, .insert 7 ⟨6, 7⟩]⟩]
    (by decide) (by decide +kernel) _ (by simp; exact .inl rfl)).1
  revert this
  decide

/-- What holds: the starts agree on both sides; and the trait's range agrees with the clump's when the clump is a single
change. -/
theorem C23_partial (p : Profile) (cc : ChangeClump) (hne : cc.changes ≠ []) :
    ChangeBasics.beforeStart cc false = cc.ranges.1.start ∧ ChangeBasics.afterStart cc false = cc.ranges.2.start ∧
      (∀ c, cc.changes = [c] → ChangeBasics.beforeRange p cc none false = .ok cc.ranges.1 ∧
        ChangeBasics.afterRange p cc none false = .ok cc.ranges.2) := by
  obtain ⟨cs⟩ := cc
  cases cs with
  | nil => exact absurd rfl hne
  | cons c cs =>
    refine ⟨by cases c <;> rfl, by cases c <;> rfl, ?_⟩
    intro d hd
    simp only [List.cons.injEq] at hd
    obtain ⟨rfl, rfl⟩ := hd
    cases c <;> exact ⟨rfl, rfl⟩

example := C23_partial .debug ⟨[.noChange ⟨6, 5, 1⟩, .insert 7 ⟨6, 7⟩]⟩ (by decide)

theorem tiles_le {cs : List Change} {i j ie je : Nat} (h : Tiles i j cs ie je) : i ≤ ie ∧ j ≤ je := by
  induction cs generalizing i j with
  | nil => exact ⟨Nat.le_of_eq h.1, Nat.le_of_eq h.2⟩
  | cons c cs ih =>
    obtain ⟨h1, h2, h3, h4, h5⟩ := h
    have := ih h5
    omega

theorem tiles_still {cs : List Change} {i j ie je : Nat} (h : Tiles i j cs ie je) :
    (i = ie ↔ ∀ d ∈ cs, d.old.start = d.old.fin) ∧ (j = je ↔ ∀ d ∈ cs, d.new.start = d.new.fin) := by
  induction cs generalizing i j with
  | nil => exact ⟨⟨fun _ _ h => (nomatch h), fun _ => h.1⟩, ⟨fun _ _ h => (nomatch h), fun _ => h.2⟩⟩
  | cons c cs ih =>
    obtain ⟨h1, h2, h3, h4, h5⟩ := h
    have hl := tiles_le h5
    have := ih h5
    simp only [List.mem_cons, forall_eq_or_imp]
    rw [← this.1, ← this.2]
    omega

theorem tiles_last {cs : List Change} {i j ie je : Nat} (h : Tiles i j cs ie je) (hne : cs ≠ []) :
    (ChangeClump.mk cs).ends = (ie, je) := by
  induction cs generalizing i j with
  | nil => exact absurd rfl hne
  | cons c cs ih =>
    obtain ⟨h1, h2, h3, h4, h5⟩ := h
    cases cs with
    | nil =>
      obtain ⟨rfl, rfl⟩ := h5
      cases c <;> rfl
    | cons d cs =>
      have := ih h5 (by simp)
      rw [← this]
      simp [ChangeClump.ends]

theorem cover_tiles {skip : CommonSubsequence → Prop} {ccs : List ChangeClump} {i j ie je : Nat}
    (h : ClumpsCover skip i j ccs ie je) : ∀ cc ∈ ccs, ∃ i j ie je, Tiles i j cc.changes ie je := by
  induction ccs generalizing i j with
  | nil => intro _ h; cases h
  | cons c ccs ih =>
    obtain ⟨n, i', j', -, h2, h3⟩ := h
    intro cc hcc
    rcases List.mem_cons.1 hcc with rfl | hcc
    · exact ⟨_, _, _, _, h2⟩
    · exact ih h3 cc hcc

/-- Exactly when the trait's ranges of a clump of a diff are the clump's ranges: the old one if nothing of the old sequence, the
new one if nothing of the new sequence belongs to the changes after the first. -/
theorem C23_exact (p q : Profile) (before after : List T) (context : Nat) (ccs : List ChangeClump)
    (h : clumpsOf p before after context = .ok ccs) (cc : ChangeClump) (hcc : cc ∈ ccs) :
    (ChangeBasics.beforeRange q cc none false = .ok cc.ranges.1 ↔ ∀ d ∈ cc.changes.tail, d.old.start = d.old.fin) ∧
    (ChangeBasics.afterRange q cc none false = .ok cc.ranges.2 ↔ ∀ d ∈ cc.changes.tail, d.new.start = d.new.fin) := by
  obtain ⟨changes, h1⟩ := clumpsOf_changes h
  have hs := (clumpsOf_spec p before after context h1 h).1
  obtain ⟨i, j, ie, je, ht⟩ := cover_tiles hs.cover cc hcc
  have hne := (hs.each cc hcc).real
  obtain ⟨cs⟩ := cc
  cases cs with
  | nil => exact absurd rfl hne
  | cons c cs =>
    have he := tiles_last ht (by simp)
    have hst := tiles_still ht.2.2.2.2
    obtain ⟨h1, h2, h3, h4, h5⟩ := ht
    have e1 : ChangeBasics.beforeRange q (ChangeClump.mk (c :: cs)) none false = .ok ⟨i, c.old.fin⟩ := by
      rw [← h1]; cases c <;> rfl
    have e2 : ChangeBasics.afterRange q (ChangeClump.mk (c :: cs)) none false = .ok ⟨j, c.new.fin⟩ := by
      rw [← h2]; cases c <;> rfl
    have e3 : (ChangeClump.mk (c :: cs)).ranges = (⟨i, ie⟩, ⟨j, je⟩) := by
      rw [ChangeClump.ranges, he, ← h1, ← h2]; cases c <;> rfl
    rw [e1, e2, e3]
    simp only [Outcome.ok.injEq, Range.mk.injEq, true_and, List.tail_cons]
    exact hst

-- the second clump of the sample: the old range is right, the new one is not
example : ChangeBasics.beforeRange .debug (ChangeClump.mk [.noChange ⟨6, 5, 1⟩, .insert 7 ⟨6, 7⟩]) none false = .ok ⟨6, 7⟩ ∧
    ChangeBasics.afterRange .debug (ChangeClump.mk [.noChange ⟨6, 5, 1⟩, .insert 7 ⟨6, 7⟩]) none false = .ok ⟨5, 6⟩ ∧
    (ChangeClump.mk [.noChange ⟨6, 5, 1⟩, .insert 7 ⟨6, 7⟩]).ranges = (⟨6, 7⟩, ⟨5, 7⟩) := by decide +kernel

end PwDiff
