import Verif.Proofs.Changes

/-! # C08–C18: the change generator

The statements hold for both kinds of sequence (`Seq<String>`, i.e. `T = Str`, and `Seq<u8>`, i.e. `T = UInt8`): the
class `LawfulItem` has exactly these two instances. -/

namespace PwDiff

variable {T : Type} [DecidableEq T] [Item T] [LawfulItem T]

/-- The block search as the generator calls it (changes.rs:266-270 builds the index table from `before`). -/
def search (p : Profile) (before after : List T) (br ar : Range) : Outcome (Option CommonSubsequence) :=
  longestCommonSubsequence p before after (Item.generateFrom before) br ar

/-! ## C08 -/

/-- Totality and location of the search. -/
theorem C08_search (p : Profile) (before after : List T) (br ar : Range) (hb : br.Inside before) (ha : ar.Inside after) :
    ∃ r, search p before after br ar = .ok r ∧
      (∀ c, r = some c → 0 < c.n ∧ br.start ≤ c.b ∧ c.b + c.n ≤ br.fin ∧ ar.start ≤ c.a ∧ c.a + c.n ≤ ar.fin) ∧
      (r = none ↔ ¬ ∃ x, x ∈ cut before br.start br.fin ∧ x ∈ cut after ar.start ar.fin) := by
  obtain ⟨r, e1, e2, e3⟩ := lcs_spec p before after _ (LawfulItem.generateFrom_eq before) br ar hb ha
  refine ⟨r, e1, ?_, ?_⟩
  · intro c hc
    obtain ⟨h1, h2, h3, h4, n0, h5, h6, -⟩ := e3 c hc
    exact ⟨by omega, h1, h2, h3, h4⟩
  · have hmem : ∀ (l : List T) (s f : Nat) (x : T), x ∈ cut l s f ↔ ∃ t, s ≤ t ∧ t < f ∧ l[t]? = some x := by
      intro l s f x
      rw [List.mem_iff_getElem?]
      constructor
      · rintro ⟨t, ht⟩
        rw [cut_getElem?] at ht
        split at ht
        · exact ⟨s + t, by omega, by omega, ht⟩
        · simp at ht
      · rintro ⟨t, h1, h2, h3⟩
        refine ⟨t - s, ?_⟩
        rw [cut_getElem?, if_pos (by omega), show s + (t - s) = t by omega, h3]
    constructor
    · rintro rfl ⟨x, hx, hy⟩
      obtain ⟨j, j1, j2, j3⟩ := (hmem _ _ _ _).1 hx
      obtain ⟨i, i1, i2, i3⟩ := (hmem _ _ _ _).1 hy
      obtain ⟨c, hc, -⟩ := e2 j i 1 j1 (by omega) i1 (by omega) (by omega) (by
        intro t ht
        have : t = 0 := by omega
        subst this; exact ⟨x, j3, i3⟩)
      simp at hc
    · intro hn
      cases r with
      | none => rfl
      | some c =>
        obtain ⟨h1, h2, h3, h4, n0, h5, h6, h7, -⟩ := e3 c rfl
        obtain ⟨x, hx, hy⟩ := h7 0 (by omega)
        exact absurd ⟨x, (hmem _ _ _ _).2 ⟨c.b, h1, by omega, by simpa using hx⟩,
          (hmem _ _ _ _).2 ⟨c.a, h3, by omega, by simpa using hy⟩⟩ hn

example : search .debug ([7, 1, 2, 3] : List UInt8) [1, 2, 9, 7] ⟨0, 4⟩ ⟨0, 4⟩ = .ok (some ⟨1, 0, 2⟩) := by decide +kernel
example : search .debug ([7, 1, 2, 3] : List UInt8) [1, 2, 9, 7] ⟨1, 4⟩ ⟨2, 4⟩ = .ok none := by decide +kernel

/-! ## C09 -/

/-- Maximality of the block found. -/
theorem C09_maximal (p : Profile) (before after : List T) (br ar : Range) (hb : br.Inside before) (ha : ar.Inside after)
    (j i k : Nat) (hj : br.start ≤ j) (hj' : j + k ≤ br.fin) (hi : ar.start ≤ i) (hi' : i + k ≤ ar.fin) (hk : 0 < k)
    (heq : cut before j (j + k) = cut after i (i + k)) :
    ∃ c, search p before after br ar = .ok (some c) ∧ k ≤ c.n := by
  obtain ⟨r, e1, e2, -⟩ := lcs_spec p before after _ (LawfulItem.generateFrom_eq before) br ar hb ha
  obtain ⟨c, rfl, hc⟩ := e2 j i k hj hj' hi hi' hk ((commonRun_iff_cut (by have := hb.2; omega) (by have := ha.2; omega)).2 heq)
  exact ⟨c, e1, hc⟩

example : cut ([7, 1, 2, 3] : List UInt8) 1 3 = cut [1, 2, 9, 7] 0 2 ∧
    (⟨0, 4⟩ : Range).Inside ([7, 1, 2, 3] : List UInt8) ∧ (⟨0, 4⟩ : Range).Inside ([1, 2, 9, 7] : List UInt8) := by
  decide

/-! ## C10

The property is false of the code: the forward extension (changes.rs:193-206) starts one item too late, so it steps
over a differing pair. -/

/-- The full statement of C10. -/
def C10_statement : Prop :=
  ∀ (p : Profile) (before after : List UInt8) (br ar : Range) (c : CommonSubsequence),
    br.Inside before → ar.Inside after → search p before after br ar = .ok (some c) →
    cut before c.b (c.b + c.n) = cut after c.a (c.a + c.n)

/-- The statement fails: on `[1,2,3]` and `[1,9,3]` the reported block `(0,0,2)` covers the differing items 2 and 9. -/
theorem C10_refuted : ¬ C10_statement := by
  intro h
  have := h .debug [1, 2, 3] [1, 9, 3] ⟨0, 3⟩ ⟨0, 3⟩ ⟨0, 0, 2⟩ (by decide) (by decide) (by decide +kernel)
  revert this
  decide

/-- What does hold: the block is either a common run, or a longest common run of the ranges, one differing pair, and the
matching items that follow it with the last one cut off.  (Missing for C10: that the second case is impossible; it is
not.) -/
theorem C10_shape_partial (p : Profile) (before after : List T) (br ar : Range) (c : CommonSubsequence)
    (hb : br.Inside before) (ha : ar.Inside after) (hc : search p before after br ar = .ok (some c)) :
    cut before c.b (c.b + c.n) = cut after c.a (c.a + c.n) ∨
    ∃ n0, 0 < n0 ∧ n0 < c.n ∧
      cut before c.b (c.b + n0) = cut after c.a (c.a + n0) ∧
      before[c.b + n0]? ≠ after[c.a + n0]? ∧
      cut before (c.b + n0 + 1) (c.b + c.n + 1) = cut after (c.a + n0 + 1) (c.a + c.n + 1) ∧
      c.b + c.n + 1 ≤ br.fin ∧ c.a + c.n + 1 ≤ ar.fin := by
  obtain ⟨r, e1, -, e3⟩ := lcs_spec p before after _ (LawfulItem.generateFrom_eq before) br ar hb ha
  have hr : r = some c := by
    have := e1.symm.trans hc
    injection this
  obtain ⟨h1, h2, h3, h4, n0, h5, h6, h7, -, h8, -⟩ := e3 c hr
  have hb2 := hb.2
  have ha2 := ha.2
  by_cases hn : n0 = c.n
  · left
    subst hn
    exact (commonRun_iff_cut (by omega) (by omega)).1 h7
  · right
    obtain ⟨g1, g2, g3, g4⟩ := h8 (by omega)
    refine ⟨n0, by omega, by omega, (commonRun_iff_cut (by omega) (by omega)).1 h7, ?_, ?_, g3, g4⟩
    · intro he
      apply g1
      have hlt : c.b + n0 < before.length := by omega
      exact ⟨before[c.b + n0], by simp [hlt], by rw [← he]; simp [hlt]⟩
    · have := (commonRun_iff_cut (before := before) (after := after) (b := c.b + n0 + 1) (a := c.a + n0 + 1) (n := c.n - n0)
        (by omega) (by omega)).1 g2
      rwa [show c.b + n0 + 1 + (c.n - n0) = c.b + c.n + 1 by omega,
        show c.a + n0 + 1 + (c.n - n0) = c.a + c.n + 1 by omega] at this

example : search .debug ([1, 2, 3] : List UInt8) [1, 9, 3] ⟨0, 3⟩ ⟨0, 3⟩ = .ok (some ⟨0, 0, 2⟩) := by decide +kernel

/-- C10 holds for inputs without a single differing pair between two equal pairs. -/
theorem C10_noIsland_partial (p : Profile) (before after : List T) (br ar : Range) (c : CommonSubsequence)
    (hi : NoIsland before after) (hb : br.Inside before) (ha : ar.Inside after)
    (hc : search p before after br ar = .ok (some c)) :
    cut before c.b (c.b + c.n) = cut after c.a (c.a + c.n) := by
  obtain ⟨r, e1, -, e3⟩ := lcs_spec p before after _ (LawfulItem.generateFrom_eq before) br ar hb ha
  have hr : r = some c := by
    have := e1.symm.trans hc
    injection this
  obtain ⟨h1, h2, h3, h4, n0, h5, h6, h7, -, h8, -⟩ := e3 c hr
  have hb2 := hb.2
  have ha2 := ha.2
  have hs : Shape before after c := ⟨n0, h5, h6, h7, fun h => ⟨(h8 h).1, (h8 h).2.1⟩⟩
  exact (commonRun_iff_cut (by omega) (by omega)).1 (hs.commonRun hi)

example : NoIsland ([7, 1, 2, 3] : List UInt8) [1, 2, 9, 7] :=
  noIsland_of_check (by decide +kernel)

/-! ## C11 -/

/-- Diffing terminates normally: no panic, no I/O error and the work list empties within its bound. -/
theorem C11_total (p : Profile) (before after : List T) : ∃ changes, changesOf p before after = .ok changes := by
  obtain ⟨cs, h, -⟩ := changesOf_spec p before after
  exact ⟨_, h⟩

example : changesOf .debug ([7, 1, 2, 3] : List UInt8) [1, 2, 9, 7] =
    .ok [.delete ⟨0, 1⟩ 0, .noChange ⟨1, 0, 2⟩, .replace ⟨3, 4⟩ ⟨2, 4⟩] := by decide +kernel

/-! ## C12 -/

/-- The changes tile both sequences. -/
theorem C12_tiles (p : Profile) (before after : List T) (changes : List Change)
    (h : changesOf p before after = .ok changes) : Tiles 0 0 changes before.length after.length :=
  changes_tiles p before after changes h

example : Tiles 0 0 [.delete ⟨0, 1⟩ 0, .noChange ⟨1, 0, 2⟩, .replace ⟨3, 4⟩ ⟨2, 4⟩] 4 4 :=
  C12_tiles .debug ([7, 1, 2, 3] : List UInt8) [1, 2, 9, 7] _ (by decide +kernel)

/-! ## C13 -/

/-- Every change is proper, and `NoChange` blocks and real changes alternate. -/
theorem C13_normal (p : Profile) (before after : List T) (changes : List Change)
    (h : changesOf p before after = .ok changes) : (∀ c ∈ changes, c.Proper) ∧ Alternating changes := by
  obtain ⟨cs, h', hg, -⟩ := changesOf_spec p before after
  obtain rfl := Outcome.ok_inj (h'.symm.trans h)
  exact ⟨proper_gen before after cs 0 0 hg.ordered, (alternating_gen before after cs 0 0 hg.ordered hg.apart).1⟩

example : Alternating [.delete ⟨0, 1⟩ 0, .noChange ⟨1, 0, 2⟩, .replace ⟨3, 4⟩ ⟨2, 4⟩] :=
  (C13_normal .debug ([7, 1, 2, 3] : List UInt8) [1, 2, 9, 7] _ (by decide +kernel)).2

/-! ## C14

False of the code because of C10. -/

/-- The full statement of C14. -/
def C14_statement : Prop :=
  ∀ (p : Profile) (before after : List UInt8) (changes : List Change), changesOf p before after = .ok changes →
    (∀ c, .noChange c ∈ changes → cut before c.b (c.b + c.n) = cut after c.a (c.a + c.n)) ∧
      replay before after changes = after

/-- The statement fails: `[1,2,3]` and `[1,9,3]` are reported as one unchanged block. -/
theorem C14_refuted : ¬ C14_statement := by
  intro h
  have := (h .debug [1, 2, 3] [1, 9, 3] [.noChange ⟨0, 0, 3⟩] (by decide +kernel)).2
  revert this
  decide

/-- The two halves of C14 are equivalent: replaying gives the second sequence exactly when all blocks are unchanged; and
in any case the replayed sequence has the right length. -/
theorem C14_replay_iff_partial (p : Profile) (before after : List T) (changes : List Change)
    (h : changesOf p before after = .ok changes) :
    (replay before after changes = after ↔
      ∀ c, .noChange c ∈ changes → cut before c.b (c.b + c.n) = cut after c.a (c.a + c.n)) ∧
    (replay before after changes).length = after.length := by
  have ht := C12_tiles p before after changes h
  have := replay_iff before after changes 0 0 before.length after.length ht (Nat.le_refl _) (Nat.le_refl _)
  rw [cut_full] at this
  refine ⟨this, ?_⟩
  rw [replay_length before after changes 0 0 before.length after.length ht (Nat.le_refl _) (Nat.le_refl _)]
  omega

example : replay ([1, 2, 3] : List UInt8) [1, 9, 3] [.noChange ⟨0, 0, 3⟩] ≠ [1, 9, 3] ∧
    (replay ([1, 2, 3] : List UInt8) [1, 9, 3] [.noChange ⟨0, 0, 3⟩]).length = 3 :=
  ⟨by decide, (C14_replay_iff_partial .debug ([1, 2, 3] : List UInt8) [1, 9, 3] _ (by decide +kernel)).2⟩

/-- C14 holds for inputs without a single differing pair between two equal pairs. -/
theorem C14_noIsland_partial (p : Profile) (before after : List T) (changes : List Change) (hi : NoIsland before after)
    (h : changesOf p before after = .ok changes) :
    (∀ c, .noChange c ∈ changes → cut before c.b (c.b + c.n) = cut after c.a (c.a + c.n)) ∧
      replay before after changes = after := by
  have key := changes_noIsland p before after changes hi h
  exact ⟨key, (C14_replay_iff_partial p before after changes h).1.2 key⟩

example : replay ([7, 1, 2, 3] : List UInt8) [1, 2, 9, 7] [.delete ⟨0, 1⟩ 0, .noChange ⟨1, 0, 2⟩, .replace ⟨3, 4⟩ ⟨2, 4⟩] = [1, 2, 9, 7] :=
  (C14_noIsland_partial .debug _ _ _ (noIsland_of_check (by decide +kernel)) (by decide +kernel)).2

/-! ## C15 (the part about the change list; the clumps are in `Props/Clumps`) -/

/-- A sequence against itself: nothing, or one block that covers everything. -/
theorem C15_changes (p : Profile) (l : List T) :
    changesOf p l l = .ok (if l = [] then [] else [.noChange ⟨0, 0, l.length⟩]) :=
  changesOf_self p l

example : changesOf .release ([5, 5, 6] : List UInt8) [5, 5, 6] = .ok [.noChange ⟨0, 0, 3⟩] := by decide +kernel

/-! ## C17 -/

/-- Sequences with nothing in common: one change that covers everything. -/
theorem C17_disjoint (p : Profile) (before after : List T) (h : ∀ x, x ∈ before → x ∉ after) :
    changesOf p before after = .ok
      (if before = [] then (if after = [] then [] else [.insert 0 ⟨0, after.length⟩])
       else (if after = [] then [.delete ⟨0, before.length⟩ 0]
             else [.replace ⟨0, before.length⟩ ⟨0, after.length⟩])) := by
  obtain ⟨cs, h', hg, d, hd, rfl⟩ := changesOf_spec p before after
  rw [h']
  congr 1
  have hd' : d = [] := by
    cases hd with
    | leaf => rfl
    | node c hc hl' hr =>
      obtain ⟨n0, h1, h2, h3, -⟩ := hc.shape.run
      obtain ⟨x, hx, hy⟩ := h3 0 (by omega)
      exact absurd (List.mem_of_getElem? hy) (h x (List.mem_of_getElem? hx))
  subst hd'
  simp only [mergeAdjacent, gen, finalChange, rangeFrom]
  by_cases hb : before = [] <;> by_cases ha : after = [] <;>
    simp [hb, ha, List.length_pos_iff]

example : ∀ x, x ∈ ([1, 2] : List UInt8) → x ∉ ([3, 4, 5] : List UInt8) := by decide

/-! ## C18 -/

/-- Any function that returns an ordered permutation of the blocks gives the same change list. -/
theorem C18_sort_schedule (sort : List CommonSubsequence → List CommonSubsequence)
    (hsort : ∀ l, (sort l).Perm l ∧ (sort l).Pairwise (fun x y => x.le y = true))
    (p : Profile) (before after : List T) :
    generateWith sort p before after (Item.generateFrom before) = changesOf p before after := by
  obtain ⟨d, -, h⟩ := generateWith_spec p before after (Item.generateFrom before) (LawfulItem.generateFrom_eq before)
  unfold changesOf generateWith
  rw [h sort hsort, h _ isSort_sortLcses]

/-- The hypothesis is met, for example by the merge sort of the standard library. -/
example : ∀ l : List CommonSubsequence, (l.mergeSort CommonSubsequence.le).Perm l ∧
    (l.mergeSort CommonSubsequence.le).Pairwise (fun x y => x.le y = true) := fun l =>
  ⟨List.mergeSort_perm l _, List.pairwise_mergeSort CommonSubsequence.le_trans CommonSubsequence.le_total l⟩

/-! ## C56 -/

/-- Replaced ranges have nothing in common: no item of the removed text occurs in the text that replaces it. -/
theorem C56_replace_disjoint (p : Profile) (before after : List T) (changes : List Change)
    (h : changesOf p before after = .ok changes) (r s : Range) (hc : .replace r s ∈ changes) :
    ∀ x, x ∈ cut before r.start r.fin → x ∉ cut after s.start s.fin := by
  obtain ⟨cs, h', hg, -⟩ := changesOf_spec p before after
  obtain rfl := Outcome.ok_inj (h'.symm.trans h)
  have := replace_clean before after cs 0 0 hg.clean r s hc
  intro x hx hy
  obtain ⟨j, hj⟩ := List.mem_iff_getElem?.1 hx
  obtain ⟨i, hi⟩ := List.mem_iff_getElem?.1 hy
  rw [cut_getElem?] at hj hi
  split at hj
  · split at hi
    · exact this (r.start + j) (s.start + i) (by omega) (by omega) (by omega) (by omega) ⟨x, hj, hi⟩
    · simp at hi
  · simp at hj

example : ∀ x, x ∈ cut ([7, 1, 2, 3] : List UInt8) 3 4 → x ∉ cut ([1, 2, 9, 7] : List UInt8) 2 4 :=
  C56_replace_disjoint .debug ([7, 1, 2, 3] : List UInt8) [1, 2, 9, 7] [.delete ⟨0, 1⟩ 0, .noChange ⟨1, 0, 2⟩, .replace ⟨3, 4⟩ ⟨2, 4⟩]
    (by decide +kernel) ⟨3, 4⟩ ⟨2, 4⟩ (by decide)

end PwDiff
