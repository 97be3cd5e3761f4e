import Verif.Proofs.Blocks
import Verif.Props.Clumps

/-! # C69–C73: exactly which items a diff keeps -/

namespace PwDiff

variable {T : Type} [DecidableEq T] [Item T] [LawfulItem T]

/-! ## C69 -/

/-- The search is completely described: it returns the block that `IsBlock` singles out, and only that one. -/
theorem C69_search (p : Profile) (before after : List T) (br ar : Range) (hb : br.Inside before) (ha : ar.Inside after)
    (c : CommonSubsequence) : longestCommonSubsequence p before after (Item.generateFrom before) br ar = .ok (some c) ↔
      IsBlock before after br ar c := by
  obtain ⟨r, e1, e2, e3⟩ := lcs_block (after := after) p _ (LawfulItem.generateFrom_eq before) hb ha
  rw [e1]
  constructor
  · intro h
    exact (e3 c (by injection h)).1
  · intro h
    cases r with
    | none =>
      obtain ⟨g1, g2, g3, g4, g5⟩ := h.hit
      exact absurd g1 (e2 rfl _ _ g2 g3 g4 g5)
    | some d => rw [(e3 d rfl).1.unique h]

/-- Both parts of the description matter: of the two runs of length 2 the one that is first in `after` is taken, and the
pair of different items 3 and 9 that follows it is stepped over. -/
example : longestCommonSubsequence .debug ([5, 6, 0, 1, 2, 3, 4, 7] : List UInt8) [1, 2, 9, 4, 5, 6] (Item.generateFrom [5, 6, 0, 1, 2, 3, 4, 7])
    ⟨0, 8⟩ ⟨0, 6⟩ = .ok (some ⟨3, 0, 3⟩) := by decide +kernel

/-! ## C70 -/

/-- The change list is completely described: it is the one list of proper changes that tiles both sequences,
alternates between blocks and changes, and keeps exactly the pairs covered by the recursively chosen blocks. -/
theorem C70_changes (p : Profile) (before after : List T) (changes : List Change) :
    changesOf p before after = .ok changes ↔
      Tiles 0 0 changes before.length after.length ∧ (∀ c ∈ changes, c.Proper) ∧ Alternating changes ∧
        ∃ d, Decomp before after 0 before.length 0 after.length d ∧ ∀ j i, Kept changes j i ↔ Covered d j i := by
  obtain ⟨cs, h, hg, d, hd, rfl⟩ := changesOf_spec p before after
  have key : Tiles 0 0 (gen before after (mergeAdjacent d) 0 0) before.length after.length ∧
      (∀ c ∈ gen before after (mergeAdjacent d) 0 0, c.Proper) ∧ Alternating (gen before after (mergeAdjacent d) 0 0) ∧
        ∀ j i, Kept (gen before after (mergeAdjacent d) 0 0) j i ↔ Covered d j i :=
    ⟨changes_tiles p before after _ h, proper_gen before after _ 0 0 hg.ordered,
      (alternating_gen before after _ 0 0 hg.ordered hg.apart).1,
      fun j i => by rw [gen_kept, mergeAdjacent_covered]⟩
  constructor
  · intro h'
    obtain rfl := Outcome.ok_inj (h.symm.trans h')
    exact ⟨key.1, key.2.1, key.2.2.1, d, hd, key.2.2.2⟩
  · rintro ⟨h1, h2, h3, d', hd', h4⟩
    obtain rfl := hd.unique hd'
    rw [h]
    exact congrArg Outcome.ok (changes_determined _ _ 0 0 _ _ key.1 h1 key.2.1 h2 key.2.2.1 h3
      (fun x y => (key.2.2.2 x y).trans (h4 x y).symm))

/-- The blocks that the description speaks about exist for all inputs, and there is only one list of them. -/
theorem C70_blocks (before after : List T) :
    ∃ d, Decomp before after 0 before.length 0 after.length d ∧
      ∀ d', Decomp before after 0 before.length 0 after.length d' → d' = d := by
  obtain ⟨cs, h, hg, d, hd, rfl⟩ := changesOf_spec .debug before after
  exact ⟨d, hd, fun d' h' => h'.unique hd⟩

/-! ## C71 -/

/-- If the items common to both sequences occur once in each and in the same order (and no single different pair stands
between two equal ones), exactly the common items are kept: the diff is as small as it can be. -/
theorem C71_minimal (p : Profile) (before after : List T) (ho : InOrder before after) (hn : NoIsland before after) :
    ∃ changes, changesOf p before after = .ok changes ∧ ∀ j i, Kept changes j i ↔ Hit before after j i := by
  obtain ⟨cs, h, hg, d, hd, rfl⟩ := changesOf_spec p before after
  refine ⟨_, h, fun j i => ?_⟩
  rw [gen_kept, mergeAdjacent_covered]
  constructor
  · rintro ⟨c, hc, t, h1, rfl, rfl⟩
    exact (hd.spec.2.2 c hc).commonRun hn t h1
  · intro hh
    obtain ⟨x, h1, h2⟩ := hh
    exact hd.covers_hits ho hn j i (Nat.zero_le _) (List.getElem?_eq_some_iff.1 h1).1 (Nat.zero_le _)
      (List.getElem?_eq_some_iff.1 h2).1 ⟨x, h1, h2⟩

omit [Item T] [LawfulItem T] in
/-- Checking `InOrder` on concrete inputs. -/
theorem inOrder_of_check {before after : List T}
    (h : ((List.range before.length).all fun j => (List.range after.length).all fun i =>
      (List.range before.length).all fun j' => (List.range after.length).all fun i' =>
        !(hitB before after j i && hitB before after j' i') || (decide (j < j') == decide (i < i'))) = true) :
    InOrder before after := by
  intro j i j' i' h1 h2
  have bound : ∀ j i, Hit before after j i → j ∈ List.range before.length ∧ i ∈ List.range after.length := by
    rintro j i ⟨x, hx, hy⟩
    exact ⟨List.mem_range.2 (List.getElem?_eq_some_iff.1 hx).1, List.mem_range.2 (List.getElem?_eq_some_iff.1 hy).1⟩
  have := List.all_eq_true.1 (List.all_eq_true.1 (List.all_eq_true.1 (List.all_eq_true.1 h j (bound j i h1).1) i (bound j i h1).2)
    j' (bound _ _ h2).1) i' (bound _ _ h2).2
  rw [(hitB_iff _ _ _ _).2 h1, (hitB_iff _ _ _ _).2 h2] at this
  simpa using this

example : InOrder ([1, 2, 3, 4, 5, 6] : List UInt8) [1, 9, 9, 2, 3, 5, 6, 8] ∧
    NoIsland ([1, 2, 3, 4, 5, 6] : List UInt8) [1, 9, 9, 2, 3, 5, 6, 8] :=
  ⟨inOrder_of_check (by decide +kernel), noIsland_of_check (by decide +kernel)⟩
example : changesOf .debug ([1, 2, 3, 4, 5, 6] : List UInt8) [1, 9, 9, 2, 3, 5, 6, 8] =
    .ok [.noChange ⟨0, 0, 1⟩, .insert 1 ⟨1, 3⟩, .noChange ⟨1, 3, 2⟩, .delete ⟨3, 4⟩ 5, .noChange ⟨4, 5, 2⟩,
      .insert 6 ⟨7, 8⟩] := by decide +kernel

/-- The condition on single pairs cannot be dropped: here all common items are in order, and the diff is empty. -/
theorem C71_island_needed : InOrder ([1, 2, 3] : List UInt8) [1, 9, 3] ∧
    changesOf .debug ([1, 2, 3] : List UInt8) [1, 9, 3] = .ok [.noChange ⟨0, 0, 3⟩] :=
  ⟨inOrder_of_check (by decide +kernel), by decide +kernel⟩

/-! ## C72 -/

/-- The change that turns the items of `old` into those of `new`, when they stand at `i` and `j`. -/
def between (i j : Nat) (old new : List T) : List Change :=
  match old, new with
  | [], [] => []
  | [], _ => [.insert i ⟨j, j + new.length⟩]
  | _, [] => [.delete ⟨i, i + old.length⟩ j]
  | _, _ => [.replace ⟨i, i + old.length⟩ ⟨j, j + new.length⟩]

/-- Everything around a common core `L` is new: then exactly the core is kept, whatever repetitions it contains. -/
theorem C72_core (p : Profile) (P P' L S S' : List T) (hL : L ≠ [])
    (hold : ∀ x ∈ P ++ S, x ∉ P' ++ L ++ S') (hnew : ∀ x ∈ P' ++ S', x ∉ P ++ L ++ S) :
    changesOf p (P ++ L ++ S) (P' ++ L ++ S') = .ok (between 0 0 P P' ++
      .noChange ⟨P.length, P'.length, L.length⟩ ::
        between (P.length + L.length) (P'.length + L.length) S S') := by
  have hlen : 0 < L.length := List.length_pos_iff.2 hL
  have outside : ∀ (A M B : List T) (j : Nat) (x : T), (A ++ M ++ B)[j]? = some x →
      ¬ (A.length ≤ j ∧ j < A.length + M.length) → x ∈ A ++ B := by
    intro A M B j x h hn
    rw [List.append_assoc] at h
    rcases Nat.lt_or_ge j A.length with hj | hj
    · rw [List.getElem?_append_left hj] at h
      exact List.mem_append_left _ (List.mem_of_getElem? h)
    · rw [List.getElem?_append_right hj, List.getElem?_append_right (by omega)] at h
      exact List.mem_append_right _ (List.mem_of_getElem? h)
  have hd : Decomp (P ++ L ++ S) (P' ++ L ++ S') 0 (P ++ L ++ S).length 0 (P' ++ L ++ S').length
      [⟨P.length, P'.length, L.length⟩] := by
    apply decomp_one
    · exact hlen
    · exact Nat.zero_le _
    · simp
    · exact Nat.zero_le _
    · simp
    · intro t ht
      simp only at ht ⊢
      refine ⟨L[t], ?_, ?_⟩ <;>
        rw [List.append_assoc, List.getElem?_append_right (by omega), List.getElem?_append_left (by omega)] <;> simp
    · rintro j i - - - - ⟨x, hx, hy⟩
      simp only
      by_cases h1 : P.length ≤ j ∧ j < P.length + L.length
      · by_cases h2 : P'.length ≤ i ∧ i < P'.length + L.length
        · omega
        · exact absurd (List.mem_of_getElem? hx) (hnew x (outside _ _ _ _ _ hy h2))
      · exact absurd (List.mem_of_getElem? hy) (hold x (outside _ _ _ _ _ hx h1))
  rw [changesOf_eq p hd]
  congr 1
  simp only [mergeAdjacent, mergeFrom, gen, gapChange_def, finalChange, rangeFrom]
  have g1 : ∀ (A B : List T), (if 0 < A.length ∧ 0 < B.length then [Change.replace ⟨0, A.length⟩ ⟨0, B.length⟩]
      else if 0 < A.length then [.delete ⟨0, A.length⟩ B.length]
      else if 0 < B.length then [.insert A.length ⟨0, B.length⟩] else []) = between 0 0 A B := by
    intro A B
    cases A <;> cases B <;> simp [between]
  rw [g1]
  congr 2
  cases S <;> cases S' <;> simp [between] <;> omega

example : changesOf .debug ([7, 1, 1, 2] : List UInt8) [1, 1, 2, 8, 9] =
    .ok [.delete ⟨0, 1⟩ 0, .noChange ⟨1, 0, 3⟩, .insert 4 ⟨3, 5⟩] :=
  C72_core .debug [7] [] [1, 1, 2] [] [8, 9] (by decide) (by decide) (by decide)

/-! ## C73 -/

omit [DecidableEq T] [Item T] [LawfulItem T] in
theorem oneOff_of_fresh (P S : List T) (x y : T) (hn : (P ++ S).Nodup) (hx : x ∉ P ++ S) (hy : y ∉ P ++ S)
    (hxy : x ≠ y) : OneOff (P ++ x :: S) (P ++ y :: S) P.length S.length := by
  have look : ∀ (z : T) (j : Nat), (P ++ z :: S)[j]? = if j < P.length then (P ++ S)[j]? else if j = P.length then some z
      else (P ++ S)[j - 1]? := by
    intro z j
    split
    · next h => rw [List.getElem?_append_left h, List.getElem?_append_left h]
    · next h =>
      rw [List.getElem?_append_right (by omega)]
      split
      · next h => subst h; simp
      · next h' =>
        rw [List.getElem?_append_right (by omega), show j - P.length = j - 1 - P.length + 1 by omega]
        simp
  have mem : ∀ {j : Nat} {z : T}, (P ++ S)[j]? = some z → z ∈ P ++ S := fun h => List.mem_of_getElem? h
  have inj : ∀ {i j : Nat} {z : T}, (P ++ S)[i]? = some z → (P ++ S)[j]? = some z → i = j := by
    intro i j z h1 h2
    exact (List.getElem?_inj (List.getElem?_eq_some_iff.1 h1).1 hn).1 (h1.trans h2.symm)
  intro j i
  constructor
  · rintro ⟨z, h1, h2⟩
    have hb : j < P.length + 1 + S.length := by
      have := (List.getElem?_eq_some_iff.1 h1).1
      simp at this; omega
    rw [look] at h1 h2
    split at h1
    · split at h2
      · have := inj h1 h2; omega
      · split at h2
        · injection h2 with h2; subst h2; exact absurd (mem h1) hy
        · have := inj h1 h2; omega
    · split at h1
      · injection h1 with h1
        subst h1
        split at h2
        · exact absurd (mem h2) hx
        · split at h2
          · injection h2 with h2; exact absurd h2.symm hxy
          · exact absurd (mem h2) hx
      · split at h2
        · have := inj h1 h2; omega
        · split at h2
          · injection h2 with h2; subst h2; exact absurd (mem h1) hy
          · have := inj h1 h2; omega
  · rintro ⟨rfl, h1, h2⟩
    have : ∃ z, (P ++ x :: S)[j]? = some z := by
      have : j < (P ++ x :: S).length := by simp; omega
      exact ⟨_, List.getElem?_eq_getElem this⟩
    obtain ⟨z, hz⟩ := this
    refine ⟨z, hz, ?_⟩
    rw [look] at hz ⊢
    split at hz
    · next h => rw [if_pos h]; exact hz
    · next h => rw [if_neg h, if_neg h1]; exact hz

/-- One line replaced by another in a file of different lines, at any place but the last line: if at least as many
lines stand before it as after it, the diff is empty and the edit is lost. -/
theorem C73_lost (p : Profile) (P S : List T) (x y : T) (hn : (P ++ S).Nodup) (hx : x ∉ P ++ S) (hy : y ∉ P ++ S)
    (hxy : x ≠ y) (hS : S ≠ []) (hlen : S.length ≤ P.length) :
    changesOf p (P ++ x :: S) (P ++ y :: S) = .ok [.noChange ⟨0, 0, (P ++ x :: S).length⟩] := by
  have hs : 0 < S.length := List.length_pos_iff.2 hS
  have ho := oneOff_of_fresh P S x y hn hx hy hxy
  have hd := decomp_swallowed ho hs hlen
  have e1 : P.length + 1 + S.length = (P ++ x :: S).length := by simp; omega
  have e2 : P.length + 1 + S.length = (P ++ y :: S).length := by simp; omega
  rw [show Decomp (P ++ x :: S) (P ++ y :: S) 0 (P.length + 1 + S.length) 0 (P.length + 1 + S.length) =
    Decomp (P ++ x :: S) (P ++ y :: S) 0 (P ++ x :: S).length 0 (P ++ y :: S).length by rw [← e1, ← e2]] at hd
  rw [changesOf_eq p hd]
  congr 1
  have m : mergeAdjacent [⟨0, 0, P.length + S.length⟩, ⟨P.length + S.length, P.length + S.length, 1⟩] =
      [⟨0, 0, (P ++ x :: S).length⟩] := by
    simp [mergeAdjacent, mergeFrom, CommonSubsequence.incrSizeMovingEnds, CommonSubsequence.beforeEnd,
      CommonSubsequence.afterEnd, CommonSubsequence.beforeStart, CommonSubsequence.afterStart, CommonSubsequence.len]
    omega
  rw [m]
  simp [gen, gapChange_def, finalChange]

/-- If more lines stand after it than before it, the edit is found and is the only change. -/
theorem C73_found (p : Profile) (P S : List T) (x y : T) (hn : (P ++ S).Nodup) (hx : x ∉ P ++ S) (hy : y ∉ P ++ S)
    (hxy : x ≠ y) (hlen : P.length < S.length ∨ S = []) :
    changesOf p (P ++ x :: S) (P ++ y :: S) = .ok ((if P = [] then [] else [.noChange ⟨0, 0, P.length⟩]) ++
      .replace ⟨P.length, P.length + 1⟩ ⟨P.length, P.length + 1⟩ ::
        (if S = [] then [] else [.noChange ⟨P.length + 1, P.length + 1, S.length⟩])) := by
  have ho := oneOff_of_fresh P S x y hn hx hy hxy
  have e1 : P.length + 1 + S.length = (P ++ x :: S).length := by simp; omega
  have e2 : P.length + 1 + S.length = (P ++ y :: S).length := by simp; omega
  have hcast := show Decomp (P ++ x :: S) (P ++ y :: S) 0 (P.length + 1 + S.length) 0 (P.length + 1 + S.length) =
    Decomp (P ++ x :: S) (P ++ y :: S) 0 (P ++ x :: S).length 0 (P ++ y :: S).length by rw [← e1, ← e2]
  by_cases hS : S = []
  · subst hS
    have hd := decomp_last (k := P.length) ho
    rw [show P.length + 1 = P.length + 1 + ([] : List T).length from rfl, hcast] at hd
    rw [changesOf_eq p hd]
    cases P <;> simp [mergeAdjacent, mergeFrom, gen, gapChange_def, finalChange, rangeFrom]
  · have hs : 0 < S.length := List.length_pos_iff.2 hS
    have hlt : P.length < S.length := by
      rcases hlen with h | h
      · exact h
      · exact absurd h hS
    have hd := decomp_found ho hs hlt
    rw [hcast] at hd
    rw [changesOf_eq p hd]
    have f : finalChange (P ++ x :: S) (P ++ y :: S) (P.length + 1 + S.length) (P.length + 1 + S.length) = [] := by
      unfold finalChange
      rw [if_neg (by omega), if_neg (by omega), if_neg (by omega)]
    by_cases hP : P = []
    · subst hP
      simp only [List.length_nil, if_true, List.nil_append, mergeAdjacent, mergeFrom, gen] at f ⊢
      rw [f]
      simp [hS, gapChange_def]
    · have hp : P.length ≠ 0 := fun h => hP (List.length_eq_zero_iff.1 h)
      simp only [if_neg hp, if_neg hP, if_neg hS, List.cons_append, List.nil_append, mergeAdjacent, mergeFrom]
      rw [if_neg (by simp [CommonSubsequence.beforeEnd, CommonSubsequence.beforeStart])]
      simp only [gen]
      rw [f]
      simp [gapChange_def]

example : (([1, 2] : List UInt8) ++ [4]).Nodup ∧ 3 ∉ ([1, 2] : List UInt8) ++ [4] ∧ 9 ∉ ([1, 2] : List UInt8) ++ [4] := by
  decide
example : changesOf .debug ([1, 2, 3, 4] : List UInt8) [1, 2, 9, 4] = .ok [.noChange ⟨0, 0, 4⟩] := by decide +kernel
example : changesOf .debug ([1, 3, 4, 5] : List UInt8) [1, 9, 4, 5] =
    .ok [.noChange ⟨0, 0, 1⟩, .replace ⟨1, 2⟩ ⟨1, 2⟩, .noChange ⟨2, 2, 2⟩] := by decide +kernel

/-- The lost edit does not come back later: such a pair of texts has no clumps, for every context, so `pw_diff` prints
a diff that changes nothing. -/
theorem C73_noClumps (p : Profile) (P S : List T) (x y : T) (hn : (P ++ S).Nodup) (hx : x ∉ P ++ S) (hy : y ∉ P ++ S)
    (hxy : x ≠ y) (hS : S ≠ []) (hlen : S.length ≤ P.length) (context : Nat) :
    diffClumps p (P ++ x :: S) (P ++ y :: S) context = .ok [] :=
  (clumpsOf_noReals p _ _ context (C73_lost p P S x y hn hx hy hxy hS hlen) rfl).2

example := C73_lost .debug ([1, 2] : List UInt8) [4] 3 9 (by decide) (by decide) (by decide) (by decide) (by decide) (by decide)
example : diffClumps .release ([1, 2, 3, 4] : List UInt8) [1, 2, 9, 4] 3 = .ok [] :=
  C73_noClumps .release ([1, 2] : List UInt8) [4] 3 9 (by decide) (by decide) (by decide) (by decide) (by decide) (by decide) 3

end PwDiff
