import Verif.Proofs.Cost

/-! # C115: how long a comparison takes -/

namespace PwDiff

variable {T : Type}

theorem length_positions [DecidableEq T] (l : List T) (x : T) : (positions l x).length = l.count x := by
  unfold positions
  induction l with
  | nil => rfl
  | cons y l ih =>
    rw [List.length_cons, List.range_succ_eq_map, List.filter_cons, List.filter_map, List.count_cons]
    have e : (fun i => (y :: l)[i]? == some x) ∘ Nat.succ = fun i => l[i]? == some x := by
      funext i; simp
    rw [e]
    by_cases h : y = x
    · subst h
      simp only [List.getElem?_cons_zero, beq_self_eq_true, if_true, List.length_cons, List.length_map]
      rw [ih]
    · have h1 : ((y :: l)[0]? == some x) = false := by simp [h]
      have h2 : (y == x) = false := by simp [h]
      rw [h1, h2]
      simp only [Bool.false_eq_true, if_false, List.length_map, Nat.add_zero]
      exact ih

/-- A better bound than that of `C115_cubic`, which does not hold: a constant times the square of the size of the input suffices
for the search for common blocks. -/
def C115_quadratic : Prop :=
  ∃ K, ∀ (p : Profile) (before after : List Str), ∃ changes steps, changesOfC p before after = .ok (changes, steps) ∧
    steps ≤ K * ((before.length + after.length + 1) * (before.length + after.length + 1))

/-- The counting search gives the change list of the program. -/
theorem C115_same [DecidableEq T] [Item T] [LawfulItem T] (p : Profile) (before after : List T) :
    ∃ changes steps, changesOf p before after = .ok changes ∧ changesOfC p before after = .ok (changes, steps) := by
  obtain ⟨ch, n, h1, h2, -⟩ := changesOfC_eq p before after
  exact ⟨ch, n, h1, h2⟩

/-- If no item occurs more than `r` times in the old sequence, the number of steps is at most proportional to the length of
the shorter sequence, the length of the new sequence and `r`. -/
theorem C115_bound [DecidableEq T] [Item T] [LawfulItem T] (p : Profile) (before after : List T) (r : Nat)
    (hr : ∀ x, before.count x ≤ r) :
    ∃ changes steps, changesOfC p before after = .ok (changes, steps) ∧
      steps ≤ (2 * min before.length after.length + 1) * (after.length * (r + 3) + 1) := by
  obtain ⟨ch, n, -, h2, h3⟩ := changesOfC_eq p before after
  exact ⟨ch, n, h2, h3 r (fun x => by rw [length_positions]; exact hr x)⟩

example := C115_bound .debug ([1, 2, 1, 3, 1] : List UInt8) [1, 1, 2] 3 (fun x => by
  by_cases h : x ∈ ([1, 2, 1, 3, 1] : List UInt8)
  · revert x
    decide
  · rw [List.count_eq_zero.2 h]
    exact Nat.zero_le _)

/-- Without repeated lines: quadratic time. -/
theorem C115_distinct [DecidableEq T] [Item T] [LawfulItem T] (p : Profile) (before after : List T) (h : before.Nodup) :
    ∃ changes steps, changesOfC p before after = .ok (changes, steps) ∧
      steps ≤ (2 * min before.length after.length + 1) * (4 * after.length + 1) := by
  obtain ⟨ch, n, h1, h2⟩ := C115_bound p before after 1 (fun x => List.nodup_iff_count.1 h x)
  exact ⟨ch, n, h1, by rw [Nat.mul_comm 4]; exact h2⟩

example := C115_distinct .debug ([1, 2, 3, 4] : List UInt8) [4, 4, 1, 2] (by decide)

/-- In general the time is at most cubic. -/
theorem C115_cubic [DecidableEq T] [Item T] [LawfulItem T] (p : Profile) (before after : List T) :
    ∃ changes steps, changesOfC p before after = .ok (changes, steps) ∧
      steps ≤ (2 * min before.length after.length + 1) * (after.length * (before.length + 3) + 1) :=
  C115_bound p before after before.length (fun _ => List.count_le_length)

/-- Comparing `2n` equal lines with a text in which every second line is replaced takes at least `n³` steps. -/
theorem C115_slow [DecidableEq T] [Item T] [LawfulItem T] {a y : T} (hay : a ≠ y) (p : Profile) (n : Nat) :
    ∃ changes steps, changesOfC p (List.replicate (2 * n) a) (List.replicate n [a, y]).flatten = .ok (changes, steps) ∧
      n * (n * (n + 1)) ≤ steps :=
  changesOfC_alternate hay p n

example := C115_slow (a := (1 : UInt8)) (y := 2) (by decide) .debug 1000

/-- So no quadratic bound holds. -/
theorem C115_refuted : ¬ C115_quadratic := by
  rintro ⟨K, h⟩
  obtain ⟨ch, n, h1, h2⟩ := C115_slow (a := (['a'] : Str)) (y := ['b']) (by decide) .debug (25 * K + 1)
  obtain ⟨ch', n', h3, h4⟩ := h .debug _ _
  rw [h1] at h3
  injection h3 with h3
  injection h3 with _ h3
  subst h3
  have hl : (List.replicate (25 * K + 1) [(['a'] : Str), ['b']]).flatten.length = 2 * (25 * K + 1) := length_alternate _ _ _
  rw [List.length_replicate, hl] at h4
  generalize hN : 25 * K + 1 = N at h2 h4
  have h5 : (2 * N + 2 * N + 1) ≤ 5 * N := by omega
  have h6 := Nat.mul_le_mul h5 h5
  have h7 := Nat.mul_le_mul_left K h6
  have h8 : K * (5 * N * (5 * N)) = 25 * K * (N * N) := by
    rw [Nat.mul_mul_mul_comm, ← Nat.mul_assoc, Nat.mul_comm K]
  have h9 : N * (N * (N + 1)) = N * (N * N) + N * N := by
    rw [Nat.mul_add, Nat.mul_one, Nat.mul_add]
  have h10 : N * (N * N) = 25 * K * (N * N) + N * N := by
    rw [← hN, Nat.add_mul, Nat.one_mul]
  have : 0 < N * N := Nat.mul_pos (by omega) (by omega)
  omega

/-- The bounds are of different size already for small inputs: these two comparisons of eight lines with eight lines take 112
and 42 steps. -/
example : (changesOfC .debug (List.replicate 8 (1 : UInt8)) [1, 2, 1, 2, 1, 2, 1, 2]).bind (fun r => .ok r.2) = .ok 112 ∧
    (changesOfC .debug ([1, 2, 3, 4, 5, 6, 7, 8] : List UInt8) [1, 9, 3, 10, 5, 11, 7, 12]).bind (fun r => .ok r.2) = .ok 42 := by
  decide +kernel

/-- The pairs counted when a block is extended: those of the longest common beginning, and the pair after it if there is one. -/
theorem C115_comparisons {T : Type} [DecidableEq T] (common xs ys : List T)
    (h : ∀ x y, xs.head? = some x → ys.head? = some y → x ≠ y) :
    comparisons (common ++ xs) (common ++ ys) = common.length + if xs = [] ∨ ys = [] then 0 else 1 := by
  induction common with
  | nil =>
    match xs, ys with
    | [], _ => cases ys <;> simp [comparisons]
    | _ :: _, [] => simp [comparisons]
    | x :: xs, y :: ys => simp [comparisons, h x y rfl rfl]
  | cons x common ih =>
    rw [List.cons_append, List.cons_append, comparisons, if_pos rfl, ih, List.length_cons]
    omega

example := C115_comparisons ([1, 2] : List UInt8) [3, 4] [5] (by simp)

end PwDiff
