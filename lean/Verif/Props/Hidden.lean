import Verif.Props.Context
import Verif.Props.Edits
import Verif.Proofs.UnifiedBack

/-! # C120: how many lines a diff can miss -/

namespace PwDiff

/-- The number of places at which two lists of the same length differ. -/
def differing {T : Type} [DecidableEq T] (xs ys : List T) : Nat := (xs.zip ys).countP fun z => decide (z.1 ≠ z.2)

/-- Differences that are single ones and not at an end are less than half of the places. -/
theorem differing_single {T : Type} [DecidableEq T] (xs ys : List T) (hl : xs.length = ys.length)
    (hlast : xs.getLast? = ys.getLast?) (hs : ∀ i : Nat, xs[i]? = ys[i]? ∨ xs[i + 1]? = ys[i + 1]?) :
    2 * differing xs ys ≤ xs.length ∧ (xs ≠ [] → xs[0]? = ys[0]? → 2 * differing xs ys + 1 ≤ xs.length) := by
  induction xs generalizing ys with
  | nil => exact ⟨Nat.zero_le _, fun h => absurd rfl h⟩
  | cons x xs ih =>
    cases ys with
    | nil => simp at hl
    | cons y ys =>
      have hl' : xs.length = ys.length := by simpa using hl
      have hs' : ∀ i : Nat, xs[i]? = ys[i]? ∨ xs[i + 1]? = ys[i + 1]? := fun i => by simpa using hs (i + 1)
      by_cases hx : xs = []
      · subst hx
        obtain rfl : ys = [] := List.eq_nil_of_length_eq_zero hl'.symm
        have : x = y := by simpa using hlast
        subst this
        simp [differing]
      · have hy : ys ≠ [] := fun h => hx (List.eq_nil_of_length_eq_zero (by rw [hl', h]; rfl))
        have hlast' : xs.getLast? = ys.getLast? := by
          obtain ⟨a, as, rfl⟩ := List.exists_cons_of_ne_nil hx
          obtain ⟨b, bs, rfl⟩ := List.exists_cons_of_ne_nil hy
          rwa [List.getLast?_cons_cons, List.getLast?_cons_cons] at hlast
        obtain ⟨h1, h2⟩ := ih ys hl' hlast' hs'
        have hd : differing (x :: xs) (y :: ys) = differing xs ys + if x ≠ y then 1 else 0 := by
          simp [differing, List.countP_cons]
        rw [hd]
        by_cases hxy : x = y
        · simp only [hxy, ne_eq, not_true_eq_false, if_false, List.length_cons]
          omega
        · have h3 := h2 hx (by
            rcases hs 0 with h | h
            · exact absurd (by simpa using h) hxy
            · simpa using h)
          simp only [ne_eq, hxy, not_false_eq_true, if_true, List.length_cons]
          constructor
          · omega
          · intro _ h
            exact absurd (by simpa using h) hxy

section
variable {T : Type} [DecidableEq T] [Item T] [LawfulItem T]

/-- What a patch makes of its own source has less than half of its lines wrong; the number of lines is right. -/
theorem C120_bound (p q : Profile) (before after : List T) (context : Nat) (hctx : context ≤ 255)
    (hb : before.length ≤ maxLines) (ha : after.length ≤ maxLines) (cs : List (DiffClump T))
    (h : diffClumps p before after context = .ok cs) :
    ∃ text, (applyInto q cs before false).run = (.ok { clean := cs.length }, bytesOf text) ∧
      text.length = after.length ∧ (after ≠ [] → 2 * differing text after + 1 ≤ after.length) := by
  obtain ⟨text, h1, h2, h3, h4, h5⟩ := C97_single p q before after context hctx hb ha cs h
  refine ⟨text, h1, h2, fun hne => ?_⟩
  rw [← h2]
  exact (differing_single text after h2 h4 h5).2 (fun h => hne (List.eq_nil_of_length_eq_zero (by rw [← h2, h]; rfl))) h3

example := C120_bound .debug .release ([1, 2, 3, 4, 3] : List UInt8) [1, 9, 3, 8, 3] 3 (by decide) (by decide)
  (by decide) [] (by decide +kernel)

end

/-! ## Files of which every second line differs -/

/-- A line of `n` letters. -/
def row (n : Nat) : Str := List.replicate n 'a' ++ ['\n']

theorem row_inj {n m : Nat} (h : row n = row m) : n = m := by
  have := congrArg List.length h
  simpa [row] using this

theorem row_whole (n : Nat) : WholeLine (row n) := by
  refine ⟨List.replicate n 'a', rfl, ?_⟩
  intro h
  exact absurd (List.eq_of_mem_replicate h) (by decide)

/-- `2 * k + 1` different lines. -/
def halfBefore (k : Nat) : List Str := (List.range (2 * k + 1)).map fun j => row (2 * j)
/-- The same with every second line replaced. -/
def halfAfter (k : Nat) : List Str := (List.range (2 * k + 1)).map fun j => row (2 * j + j % 2)

theorem half_hit {k j i : Nat} : Hit (halfBefore k) (halfAfter k) j i ↔ j = i ∧ j % 2 = 0 ∧ j < 2 * k + 1 := by
  constructor
  · rintro ⟨x, h1, h2⟩
    have l1 := (List.getElem?_eq_some_iff.1 h1).1
    have l2 := (List.getElem?_eq_some_iff.1 h2).1
    simp only [halfBefore, halfAfter, List.length_map, List.length_range] at l1 l2
    rw [halfBefore, List.getElem?_map, List.getElem?_range l1] at h1
    rw [halfAfter, List.getElem?_map, List.getElem?_range l2] at h2
    have := row_inj (Option.some.inj (h1.trans h2.symm))
    omega
  · rintro ⟨rfl, h1, h2⟩
    refine ⟨row (2 * j), ?_, ?_⟩
    · rw [halfBefore, List.getElem?_map, List.getElem?_range h2]; rfl
    · rw [halfAfter, List.getElem?_map, List.getElem?_range h2, Option.map_some, h1]; rfl

theorem half_block {k r e : Nat} (he : e = if r < k then 1 else 0) (hr : r ≤ k) :
    IsBlock (halfBefore k) (halfAfter k) ⟨2 * r, 2 * k + 1⟩ ⟨2 * r, 2 * k + 1⟩ ⟨2 * r, 2 * r, 1 + e⟩ := by
  refine ⟨1, e, ⟨by omega, ⟨Nat.le_refl _, by simp only; omega⟩, ⟨Nat.le_refl _, by simp only; omega⟩, ?_, ?_, ?_⟩, ⟨?_, ?_, ?_⟩, rfl⟩
  · intro t ht
    obtain rfl : t = 0 := by omega
    exact half_hit.2 ⟨rfl, Nat.mul_mod_right 2 r, by simp only; omega⟩
  · intro j i n _ _ _ _ hn
    rcases Nat.lt_or_ge 1 n with h | h
    · have h0 := half_hit.1 (hn 0 (by omega))
      have h1 := half_hit.1 (hn 1 h)
      omega
    · exact h
  · intro j i h1 _ h2 _ _
    exact ⟨h2, fun _ => h1⟩
  · intro t ht
    have hr' : r < k := by split at he <;> omega
    obtain rfl : t = 0 := by split at he <;> omega
    exact half_hit.2 ⟨rfl, by simp only; omega, by simp only; omega⟩
  · intro h
    simp only
    split at he <;> omega
  · intro h1 _ h
    have := half_hit.1 h
    simp only at h1 this
    split at he <;> omega

theorem covers_diagonal {b n j i : Nat} : (⟨b, b, n⟩ : CommonSubsequence).Covers j i ↔ j = i ∧ b ≤ j ∧ j < b + n := by
  constructor
  · rintro ⟨t, h1, h2, h3⟩
    simp only at h1 h2 h3
    omega
  · rintro ⟨rfl, h1, h2⟩
    refine ⟨j - b, ?_, ?_, ?_⟩ <;> simp only <;> omega

theorem half_decomp (k : Nat) (m r : Nat) (h : r + m = k) :
    ∃ d, Decomp (halfBefore k) (halfAfter k) (2 * r) (2 * k + 1) (2 * r) (2 * k + 1) d ∧
      ∀ j i, Covered d j i ↔ j = i ∧ 2 * r ≤ j ∧ j < 2 * k + 1 := by
  induction m generalizing r with
  | zero =>
    refine ⟨_, .node _ (half_block rfl (by omega)) (.leaf (Nat.le_refl _) (Nat.le_refl _) (by intro j i h1 h2; simp only at h2; omega))
      (.leaf ?_ ?_ ?_), ?_⟩
    · simp only; split <;> omega
    · simp only; split <;> omega
    · intro j i h1 h2
      simp only at h1
      split at h1 <;> omega
    · intro j i
      simp only [Covered, List.nil_append, List.mem_singleton, exists_eq_left, covers_diagonal]
      split <;> omega
  | succ m ih =>
    obtain ⟨d, h1, h2⟩ := ih (r + 1) (by omega)
    have hr : r < k := by omega
    refine ⟨_, .node ⟨2 * r, 2 * r, 1 + 1⟩ (half_block (by rw [if_pos hr]) (by omega))
      (.leaf (Nat.le_refl _) (Nat.le_refl _) (by intro j i h1 h2; simp only at h2; omega)) h1, ?_⟩
    intro j i
    have := h2 j i
    simp only [Covered, List.nil_append, List.mem_cons, exists_eq_or_imp, covers_diagonal] at this ⊢
    rw [this]
    omega

theorem half_changes (p : Profile) (k : Nat) :
    changesOf p (halfBefore k) (halfAfter k) = .ok [.noChange ⟨0, 0, 2 * k + 1⟩] := by
  rw [C70_changes]
  have hb : (halfBefore k).length = 2 * k + 1 := by simp [halfBefore]
  have ha : (halfAfter k).length = 2 * k + 1 := by simp [halfAfter]
  obtain ⟨d, h1, h2⟩ := half_decomp k k 0 (by omega)
  rw [hb, ha]
  refine ⟨?_, ?_, ?_, d, h1, ?_⟩
  · simp only [Tiles, Change.old, Change.new]
    and_intros <;> first | trivial | omega
  · simp [Change.Proper]
  · simp [Alternating]
  · intro j i
    rw [h2]
    simp only [Kept, List.mem_singleton, Change.noChange.injEq, exists_eq_left, covers_diagonal]
    omega

theorem half_differing (k : Nat) : differing (halfBefore k) (halfAfter k) = k := by
  have hz : ∀ n, differing ((List.range n).map fun j => row (2 * j)) ((List.range n).map fun j => row (2 * j + j % 2)) = n / 2 := by
    intro n
    induction n with
    | zero => rfl
    | succ n ih =>
      rw [differing] at ih ⊢
      rw [List.range_succ, List.map_append, List.map_append, List.zip_append (by simp), List.countP_append, ih]
      rcases Nat.mod_two_eq_zero_or_one n with h | h
      · simp only [List.map_cons, List.map_nil, List.zip_cons_cons, List.zip_nil_right, h]
        simp
        omega
      · have : row (2 * n) ≠ row (2 * n + 1) := fun e => by have := row_inj e; omega
        simp only [List.map_cons, List.map_nil, List.zip_cons_cons, List.zip_nil_right, h]
        simp [this]
        omega
  rw [halfBefore, halfAfter, hz]
  omega

/-- That many can be: for every `k` there are texts of `2 * k + 1` lines of which `k` differ, and between which no difference is
found, whatever the context. -/
theorem C120_sharp (k : Nat) : ∃ s t : Str, (splitInclusive s).length = 2 * k + 1 ∧ (splitInclusive t).length = 2 * k + 1 ∧
    differing (splitInclusive s) (splitInclusive t) = k ∧
    ∀ (p : Profile) (context : Nat), diffClumps p (splitInclusive s) (splitInclusive t) context = .ok [] := by
  have split : ∀ ls : List Str, (∀ l ∈ ls, WholeLine l) → splitInclusive ls.flatten = ls := by
    intro ls h
    have := splitInclusive_flatten h []
    rwa [List.append_nil, show splitInclusive [] = [] from rfl, List.append_nil] at this
  have hb : splitInclusive (halfBefore k).flatten = halfBefore k := split _ (by
    intro l hl
    obtain ⟨j, -, rfl⟩ := List.mem_map.1 hl
    exact row_whole _)
  have ha : splitInclusive (halfAfter k).flatten = halfAfter k := split _ (by
    intro l hl
    obtain ⟨j, -, rfl⟩ := List.mem_map.1 hl
    exact row_whole _)
  refine ⟨(halfBefore k).flatten, (halfAfter k).flatten, ?_, ?_, ?_, ?_⟩
  · rw [hb]; simp [halfBefore]
  · rw [ha]; simp [halfAfter]
  · rw [hb, ha, half_differing]
  · intro p context
    rw [hb, ha]
    exact (clumpsOf_noReals p _ _ context (half_changes p k) rfl).2

/-- Then `pw_diff` writes what it writes for two equal files, and ends with exit status 0. -/
theorem C120_program (k : Nat) : ∃ s t : Str, (splitInclusive s).length = 2 * k + 1 ∧ (splitInclusive t).length = 2 * k + 1 ∧
    differing (splitInclusive s) (splitInclusive t) = k ∧
    ∀ (p : Profile) (before after : Path) (context : Nat) (w : World), w.faults = [] → w.stdout = [] → IsUtf8 before → IsUtf8 after →
      w.fs.contentAt before = some ⟨s.bytes, false⟩ → w.fs.contentAt after = some ⟨t.bytes, false⟩ →
      (pwDiff p before after context).run w = (.exited 0, { w with stdout := (Diff.textChange ⟨before, after, []⟩).fileContent }) := by
  obtain ⟨s, t, h1, h2, h3, h4⟩ := C120_sharp k
  refine ⟨s, t, h1, h2, h3, ?_⟩
  intro p before after context w hw hs hub hua hb ha
  have hd := diffNew_text hw p context hb ha (h4 p context)
  have := run_of_ok (pwDiff_eq hw p before after context hd (toWriter_fromReader _ (by intro c hc; cases hc)
    (by intro path h; simp only [Diff.paths, List.mem_cons, List.not_mem_nil, or_false] at h; rcases h with rfl | rfl <;> assumption)).1)
  rw [hs] at this
  exact this

/-- Five lines of which two differ. -/
example : diffClumps .debug ([1, 2, 3, 4, 5] : List UInt8) [1, 9, 3, 8, 5] 3 = .ok [] ∧
    differing ([1, 2, 3, 4, 5] : List UInt8) [1, 9, 3, 8, 5] = 2 := by decide +kernel

end PwDiff
