import Verif.Props.Blocks

/-! # C116: how far a diff is from the smallest one -/

namespace PwDiff

variable {T : Type}

/-- Equal runs of the two sequences, in the same order and without overlaps: what a diff could leave unchanged. -/
def Aligned (before after : List T) : Nat → Nat → List CommonSubsequence → Prop
  | _, _, [] => True
  | j, i, c :: cs => j ≤ c.b ∧ i ≤ c.a ∧ CommonRun before after c.b c.a c.n ∧ Aligned before after (c.b + c.n) (c.a + c.n) cs

/-- The number of lines in the runs. -/
def runLines (cs : List CommonSubsequence) : Nat := (cs.map CommonSubsequence.n).sum

/-- The number of lines of a block that are the same in both sequences. -/
def sameLines [DecidableEq T] (before after : List T) (c : CommonSubsequence) : Nat :=
  ((List.range c.n).filter fun t => decide (before[c.b + t]? = after[c.a + t]?)).length

/-- The number of lines that a change list leaves unchanged, and that are unchanged. -/
def unchanged [DecidableEq T] (before after : List T) : List Change → Nat
  | [] => 0
  | .noChange c :: cs => sameLines before after c + unchanged before after cs
  | _ :: cs => unchanged before after cs

/-! ## Lemmas -/

/-- One block lies inside another on the same diagonal. -/
def InBlock (c e : CommonSubsequence) : Prop := e.b ≤ c.b ∧ c.b + c.n ≤ e.b + e.n ∧ c.b + e.a = e.b + c.a

theorem mergeFrom_within (x : CommonSubsequence) (l : List CommonSubsequence) :
    ∀ c ∈ x :: l, ∃ e ∈ mergeFrom x l, InBlock c e := by
  induction l generalizing x with
  | nil =>
    intro c hc
    exact ⟨c, by simpa [mergeFrom] using hc, by unfold InBlock; omega⟩
  | cons d l ih =>
    intro c hc
    unfold mergeFrom
    split
    · next hadj =>
      simp only [CommonSubsequence.beforeEnd, CommonSubsequence.afterEnd, CommonSubsequence.beforeStart,
        CommonSubsequence.afterStart] at hadj
      obtain ⟨e, he, hw⟩ := ih (x.incrSizeMovingEnds d.len) _ (.head _)
      simp only [InBlock, CommonSubsequence.incrSizeMovingEnds, CommonSubsequence.len] at hw
      rcases List.mem_cons.1 hc with rfl | hc
      · exact ⟨e, he, by unfold InBlock; omega⟩
      · rcases List.mem_cons.1 hc with rfl | hc
        · exact ⟨e, he, by unfold InBlock; omega⟩
        · exact ih _ c (.tail _ hc)
    · rcases List.mem_cons.1 hc with rfl | hc
      · exact ⟨c, .head _, by unfold InBlock; omega⟩
      · obtain ⟨e, he, hw⟩ := ih d c hc
        exact ⟨e, .tail _ he, hw⟩

theorem mergeAdjacent_within (d : List CommonSubsequence) : ∀ c ∈ d, ∃ e ∈ mergeAdjacent d, InBlock c e := by
  cases d with
  | nil => simp
  | cons x l => exact mergeFrom_within x l

theorem mem_gen_of_mem (before after : List T) (cs : List CommonSubsequence) (i j : Nat) :
    ∀ c ∈ cs, .noChange c ∈ gen before after cs i j := by
  induction cs generalizing i j with
  | nil => simp
  | cons x cs ih =>
    intro c hc
    rw [gen]
    rcases List.mem_cons.1 hc with rfl | hc
    · simp
    · exact List.mem_append_right _ (.tail _ (ih _ _ c hc))

section
variable [DecidableEq T]

theorem sameLines_le_unchanged (before after : List T) (changes : List Change) (c : CommonSubsequence)
    (h : .noChange c ∈ changes) : sameLines before after c ≤ unchanged before after changes := by
  induction changes with
  | nil => cases h
  | cons x changes ih =>
    rcases List.mem_cons.1 h with rfl | h
    · rw [unchanged]; omega
    · have := ih h
      cases x <;> simp only [unchanged] <;> omega

omit [DecidableEq T] in
theorem Hit.eq {before after : List T} {j i : Nat} (h : Hit before after j i) : before[j]? = after[i]? := by
  obtain ⟨x, h1, h2⟩ := h
  rw [h1, h2]

/-- A common run inside a block counts. -/
theorem run_le_sameLines {before after : List T} {b a n : Nat} {e : CommonSubsequence} (h : CommonRun before after b a n)
    (hw : InBlock ⟨b, a, n⟩ e) : n ≤ sameLines before after e := by
  simp only [InBlock] at hw
  unfold sameLines
  have hsub : ((List.range n).map fun t => t + (b - e.b)).Sublist (List.range e.n) := by
    have : ((List.range n).map fun t => t + (b - e.b)) = List.range' (b - e.b) n := by
      rw [List.range'_eq_map_range]
      exact List.map_congr_left fun t _ => Nat.add_comm _ _
    rw [this, List.range_eq_range', show e.n = (b - e.b) + (n + (e.n - n - (b - e.b))) by omega,
      ← List.range'_append_1 (s := 0), ← List.range'_append_1 (s := 0 + (b - e.b))]
    refine List.Sublist.trans ?_ (List.sublist_append_right _ _)
    rw [Nat.zero_add]
    exact List.sublist_append_left _ _
  have := (hsub.filter fun t => decide (before[e.b + t]? = after[e.a + t]?)).length_le
  rw [List.filter_eq_self.2] at this
  · simpa using this
  · intro x hx
    obtain ⟨t, ht, rfl⟩ := List.mem_map.1 hx
    rw [List.mem_range] at ht
    have := (h t ht).eq
    rw [show e.b + (t + (b - e.b)) = b + t by omega, show e.a + (t + (b - e.b)) = a + t by omega, this]
    simp

end

/-- All runs of an alignment are at most `n` long. -/
theorem runLines_le {cs : List CommonSubsequence} {n : Nat} (h : ∀ c ∈ cs, c.n ≤ n) : runLines cs ≤ cs.length * n := by
  induction cs with
  | nil => simp [runLines]
  | cons c cs ih =>
    have h1 := h c (.head _)
    have h2 := ih fun x hx => h x (.tail _ hx)
    simp only [runLines, List.map_cons, List.sum_cons, List.length_cons, Nat.succ_mul] at h2 ⊢
    omega

theorem Aligned.common {before after : List T} {j i : Nat} {cs : List CommonSubsequence} (h : Aligned before after j i cs) :
    ∀ c ∈ cs, CommonRun before after c.b c.a c.n := by
  induction cs generalizing j i with
  | nil => simp
  | cons x cs ih =>
    intro c hc
    rcases List.mem_cons.1 hc with rfl | hc
    · exact h.2.2.1
    · exact ih h.2.2.2 c hc

theorem CommonRun.bounds {before after : List T} {b a n : Nat} (h : CommonRun before after b a n) (hn : 0 < n) :
    b + n ≤ before.length ∧ a + n ≤ after.length := by
  obtain ⟨x, h1, h2⟩ := h (n - 1) (by omega)
  have h1 := (List.getElem?_eq_some_iff.1 h1).1
  have h2 := (List.getElem?_eq_some_iff.1 h2).1
  omega

/-! ## The property -/

/-- A stronger claim, which does not hold: no alignment of the two sequences leaves more lines unchanged than the diff. -/
def C116_minimal : Prop :=
  ∀ (p : Profile) (before after : List Str) (changes : List Change), changesOf p before after = .ok changes →
    ∀ cs, Aligned before after 0 0 cs → runLines cs ≤ unchanged before after changes

/-- Every common run is at most as long as what the diff leaves unchanged. -/
theorem C116_run [DecidableEq T] [Item T] [LawfulItem T] (p : Profile) (before after : List T) (changes : List Change)
    (h : changesOf p before after = .ok changes) (b a n : Nat) (hr : CommonRun before after b a n) :
    n ≤ unchanged before after changes := by
  rcases Nat.eq_zero_or_pos n with rfl | hn
  · exact Nat.zero_le _
  obtain ⟨cs, h', -, d, hd, rfl⟩ := changesOf_spec p before after
  obtain rfl := Outcome.ok_inj (h'.symm.trans h)
  obtain ⟨hb, ha⟩ := hr.bounds hn
  cases hd with
  | leaf h1 h2 h3 => exact absurd (hr 0 hn) (h3 _ _ (Nat.zero_le _) (by omega) (Nat.zero_le _) (by omega))
  | node c hc hl hr' =>
    obtain ⟨m, e, hm, -, hcn⟩ := hc
    have hle := hm.longest b a n (Nat.zero_le _) hb (Nat.zero_le _) ha hr
    obtain ⟨f, hf, hw⟩ := mergeAdjacent_within _ c (List.mem_append_right _ (.head _))
    have hw' : InBlock ⟨c.b, c.a, m⟩ f := by
      simp only [InBlock] at hw ⊢; omega
    exact Nat.le_trans hle (Nat.le_trans (run_le_sameLines hm.run hw')
      (sameLines_le_unchanged before after _ f (mem_gen_of_mem before after _ 0 0 f hf)))

example : 2 ≤ unchanged ([1, 2, 3, 4, 5, 6, 7] : List UInt8) [4, 5, 8, 6, 7, 9, 1, 2, 3]
    [.insert 0 ⟨0, 6⟩, .noChange ⟨0, 6, 3⟩, .delete ⟨3, 7⟩ 9] :=
  C116_run .debug _ _ _ (by decide +kernel) 5 3 2 ((commonRun_iff_cut (by decide) (by decide)).2 (by decide))

/-- If some alignment of `k` runs leaves lines unchanged, the diff leaves at least the `k`-th part of them
unchanged. -/
theorem C116_bound [DecidableEq T] [Item T] [LawfulItem T] (p : Profile) (before after : List T) (changes : List Change)
    (h : changesOf p before after = .ok changes) (cs : List CommonSubsequence) (ha : Aligned before after 0 0 cs) :
    runLines cs ≤ cs.length * unchanged before after changes :=
  runLines_le fun c hc => C116_run p before after changes h c.b c.a c.n (ha.common c hc)

/-! ## Nearly all the rest can be lost -/

/-- Different lines for different numbers. -/
def line (n : Nat) : Str := List.replicate n 'a'

theorem line_inj {n m : Nat} (h : line n = line m) : n = m := by
  have := congrArg List.length h
  simpa [line] using this

/-- `m + 1` lines, followed by `k * m` others. -/
def farBefore (k m : Nat) : List Str := (List.range (m + 1)).map (fun q => line (3 * q)) ++ (List.range (k * m)).map fun q => line (3 * q + 1)

/-- The others, with a new line after every `m` of them, followed by the first ones. -/
def farAfter (k m : Nat) : List Str :=
  (List.range (k * (m + 1))).map (fun i => if i % (m + 1) = m then line (3 * i + 2) else line (3 * (i / (m + 1) * m + i % (m + 1)) + 1)) ++
    (List.range (m + 1)).map fun q => line (3 * q)

theorem length_farBefore (k m : Nat) : (farBefore k m).length = m + 1 + k * m := by simp [farBefore]
theorem length_farAfter (k m : Nat) : (farAfter k m).length = k * (m + 1) + (m + 1) := by simp [farAfter]

theorem farBefore_low {k m j : Nat} (h : j < m + 1) : (farBefore k m)[j]? = some (line (3 * j)) := by
  rw [farBefore, List.getElem?_append_left (by simpa using h), List.getElem?_map, List.getElem?_range h]
  rfl

theorem farBefore_high {k m q : Nat} (h : q < k * m) : (farBefore k m)[m + 1 + q]? = some (line (3 * q + 1)) := by
  rw [farBefore, List.getElem?_append_right (by simp), List.getElem?_map]
  simp only [List.length_map, List.length_range, Nat.add_sub_cancel_left]
  rw [List.getElem?_range h]
  rfl

theorem farAfter_low {k m i : Nat} (h : i < k * (m + 1)) :
    (farAfter k m)[i]? = some (if i % (m + 1) = m then line (3 * i + 2) else line (3 * (i / (m + 1) * m + i % (m + 1)) + 1)) := by
  rw [farAfter, List.getElem?_append_left (by simpa using h), List.getElem?_map, List.getElem?_range h]
  rfl

theorem farAfter_high {k m q : Nat} (h : q < m + 1) : (farAfter k m)[k * (m + 1) + q]? = some (line (3 * q)) := by
  rw [farAfter, List.getElem?_append_right (by simp), List.getElem?_map]
  simp only [List.length_map, List.length_range, Nat.add_sub_cancel_left]
  rw [List.getElem?_range h]
  rfl

theorem getElem?_farBefore {k m j : Nat} {x : Str} (h : (farBefore k m)[j]? = some x) :
    (j < m + 1 ∧ x = line (3 * j)) ∨ (∃ q, j = m + 1 + q ∧ x = line (3 * q + 1)) := by
  have hl := (List.getElem?_eq_some_iff.1 h).1
  rw [length_farBefore] at hl
  by_cases hj : j < m + 1
  · rw [farBefore_low hj] at h
    exact .inl ⟨hj, (Option.some.inj h).symm⟩
  · obtain ⟨q, rfl⟩ : ∃ q, j = m + 1 + q := ⟨j - (m + 1), by omega⟩
    rw [farBefore_high (by omega)] at h
    exact .inr ⟨q, rfl, (Option.some.inj h).symm⟩

/-- No common run passes one of the new lines. -/
theorem far_run {k m j i n : Nat} (h : CommonRun (farBefore k m) (farAfter k m) j i n) (hn : m + 1 ≤ n) : k * (m + 1) ≤ i := by
  rcases Nat.lt_or_ge i (k * (m + 1)) with hi | hi
  · exfalso
    have hq : i / (m + 1) < k := Nat.div_lt_of_lt_mul (by rwa [Nat.mul_comm] at hi)
    have hdm := Nat.div_add_mod i (m + 1)
    have hmod := Nat.mod_lt i (show 0 < m + 1 by omega)
    have hm1 : (m + 1) * (i / (m + 1) + 1) ≤ (m + 1) * k := Nat.mul_le_mul_left _ hq
    rw [Nat.mul_succ, Nat.mul_comm _ k] at hm1
    obtain ⟨x, h1, h2⟩ := h (m - i % (m + 1)) (by omega)
    have e : i + (m - i % (m + 1)) = m + (m + 1) * (i / (m + 1)) := by omega
    rw [e, farAfter_low (by omega), if_pos (by rw [Nat.add_mul_mod_self_left]; exact Nat.mod_eq_of_lt (by omega))] at h2
    have h2 := Option.some.inj h2
    rcases getElem?_farBefore h1 with ⟨-, hx⟩ | ⟨q, -, hx⟩
    · have := line_inj (h2.trans hx); omega
    · have := line_inj (h2.trans hx); omega
  · exact hi

theorem far_common (k m : Nat) : CommonRun (farBefore k m) (farAfter k m) 0 (k * (m + 1)) (m + 1) := by
  intro t ht
  refine ⟨line (3 * t), ?_, farAfter_high ht⟩
  rw [Nat.zero_add]
  exact farBefore_low ht

theorem far_chosen (k m : Nat) : IsChosen (farBefore k m) (farAfter k m) ⟨0, (farBefore k m).length⟩ ⟨0, (farAfter k m).length⟩
    0 (k * (m + 1)) (m + 1) := by
  refine ⟨by omega, ⟨Nat.le_refl _, by simp only [length_farBefore]; omega⟩,
    ⟨Nat.zero_le _, by simp only [length_farAfter]; omega⟩, far_common k m, ?_, ?_⟩
  · intro j i n _ _ _ h2 hr
    rcases Nat.lt_or_ge n (m + 1) with h | h
    · omega
    · have := far_run hr h
      simp only [length_farAfter] at h2
      omega
  · intro j i _ _ _ h2 hr
    have := far_run hr (Nat.le_refl _)
    exact ⟨this, fun _ => Nat.zero_le _⟩

theorem far_changes (p : Profile) (k m : Nat) (hk : 0 < k) (hm : 0 < m) :
    changesOf p (farBefore k m) (farAfter k m) = .ok [.insert 0 ⟨0, k * (m + 1)⟩, .noChange ⟨0, k * (m + 1), m + 1⟩,
      .delete ⟨m + 1, (farBefore k m).length⟩ (farAfter k m).length] := by
  have hkm : 0 < k * m := Nat.mul_pos hk hm
  have hkm' : 0 < k * (m + 1) := Nat.mul_pos hk (by omega)
  have hb := length_farBefore k m
  have ha := length_farAfter k m
  rw [C70_changes]
  refine ⟨?_, ?_, ?_, ?_⟩
  · simp only [Tiles, Change.old, Change.new]
    and_intros <;> first | trivial | omega
  · intro c hc
    simp only [List.mem_cons, List.not_mem_nil, or_false] at hc
    rcases hc with rfl | rfl | rfl <;> simp only [Change.Proper] <;> omega
  · simp [Alternating, Change.isNoChange]
  · refine ⟨[] ++ ⟨0, k * (m + 1), m + 1⟩ :: [], .node ⟨0, k * (m + 1), m + 1⟩ ⟨m + 1, 0, far_chosen k m, ?_, rfl⟩ ?_ ?_, ?_⟩
    · refine ⟨fun t ht => absurd ht (Nat.not_lt_zero _), fun h => absurd h (Nat.lt_irrefl _), ?_⟩
      intro _ h
      simp only at h
      omega
    · exact .leaf (Nat.le_refl _) (Nat.zero_le _) (fun j i _ h => absurd h (Nat.not_lt_zero _))
    · refine .leaf (by simp only; omega) (by simp only; omega) ?_
      intro j i _ _ h3 h4
      simp only at h3
      omega
    · intro j i
      simp [Kept, Covered]

theorem far_unchanged (k m : Nat) (xs ys : List Change) (hx : ∀ c ∈ xs, c.isNoChange = false) (hy : ∀ c ∈ ys, c.isNoChange = false) :
    unchanged (farBefore k m) (farAfter k m) (xs ++ .noChange ⟨0, k * (m + 1), m + 1⟩ :: ys) = m + 1 := by
  have hno : ∀ l : List Change, (∀ c ∈ l, c.isNoChange = false) → unchanged (farBefore k m) (farAfter k m) l = 0 := by
    intro l hl
    induction l with
    | nil => rfl
    | cons c l ih =>
      have h1 := hl c (.head _)
      have h2 := ih fun x hx => hl x (.tail _ hx)
      cases c <;> simp only [unchanged, h2] <;> simp [Change.isNoChange] at h1
  induction xs with
  | nil =>
    simp only [List.nil_append, unchanged, hno ys hy, sameLines]
    rw [List.filter_eq_self.2]
    · simp
    · intro t ht
      rw [List.mem_range] at ht
      have := (far_common k m t ht).eq
      exact decide_eq_true this
  | cons c xs ih =>
    have h1 := hx c (.head _)
    have h2 := ih fun x h => hx x (.tail _ h)
    cases c <;> simp only [List.cons_append, unchanged, h2] <;> simp [Change.isNoChange] at h1

theorem Aligned.weaken {before after : List Str} {j i j' i' : Nat} {cs : List CommonSubsequence} (h : Aligned before after j i cs)
    (h1 : j' ≤ j) (h2 : i' ≤ i) : Aligned before after j' i' cs := by
  cases cs with
  | nil => trivial
  | cons c cs => exact ⟨Nat.le_trans h1 h.1, Nat.le_trans h2 h.2.1, h.2.2⟩

theorem far_aligned (k m : Nat) (r s : Nat) (h : r + s = k) :
    Aligned (farBefore k m) (farAfter k m) (m + 1 + r * m) (r * (m + 1))
      ((List.range' r s).map fun q => ⟨m + 1 + q * m, q * (m + 1), m⟩) := by
  induction s generalizing r with
  | zero => trivial
  | succ s ih =>
    have hrk : (r + 1) * m ≤ k * m := Nat.mul_le_mul_right _ (by omega)
    have hrk' : (r + 1) * (m + 1) ≤ k * (m + 1) := Nat.mul_le_mul_right _ (by omega)
    rw [Nat.succ_mul] at hrk hrk'
    rw [List.range'_succ, List.map_cons]
    refine ⟨Nat.le_refl _, Nat.le_refl _, ?_, ?_⟩
    · intro t ht
      simp only at ht ⊢
      refine ⟨line (3 * (r * m + t) + 1), ?_, ?_⟩
      · rw [Nat.add_assoc]; exact farBefore_high (by omega)
      · rw [farAfter_low (by omega), Nat.add_comm (r * (m + 1)) t, Nat.add_mul_mod_self_right, Nat.mod_eq_of_lt (by omega),
          Nat.add_mul_div_right _ _ (by omega), Nat.div_eq_of_lt (by omega), if_neg (by omega), Nat.zero_add]
    · simp only
      have := ih (r + 1) (by omega)
      rw [Nat.succ_mul, Nat.succ_mul] at this
      rw [Nat.add_assoc (m + 1)]
      refine this.weaken ?_ ?_ <;> omega
/-- Not much more holds: for all `k` and `m` there are files with an alignment of `k` runs of `m` lines of which the diff
leaves only `m + 1` lines unchanged. -/
theorem C116_sharp (p : Profile) (k m : Nat) (hk : 0 < k) (hm : 0 < m) :
    ∃ (before after : List Str) (cs : List CommonSubsequence) (changes : List Change), Aligned before after 0 0 cs ∧
      cs.length = k ∧ runLines cs = k * m ∧ changesOf p before after = .ok changes ∧ unchanged before after changes = m + 1 := by
  refine ⟨farBefore k m, farAfter k m, (List.range' 0 k).map fun q => ⟨m + 1 + q * m, q * (m + 1), m⟩, _, ?_, by simp, ?_,
    far_changes p k m hk hm, ?_⟩
  · exact (far_aligned k m 0 k (by omega)).weaken (by omega) (by omega)
  · simp only [runLines, List.map_map]
    have : (CommonSubsequence.n ∘ fun q => (⟨m + 1 + q * m, q * (m + 1), m⟩ : CommonSubsequence)) = fun _ => m := rfl
    rw [this, List.map_const', List.sum_replicate_nat, List.length_range']
  · exact far_unchanged k m [.insert 0 ⟨0, k * (m + 1)⟩] [.delete ⟨m + 1, (farBefore k m).length⟩ (farAfter k m).length]
      (by simp [Change.isNoChange]) (by simp [Change.isNoChange])

example := C116_sharp .debug 10 7 (by decide) (by decide)

/-- The diff is not the smallest one in general. -/
theorem C116_refuted : ¬ C116_minimal := by
  intro h
  obtain ⟨before, after, cs, changes, h1, -, h3, h4, h5⟩ := C116_sharp .debug 2 2 (by decide) (by decide)
  have := h .debug before after changes h4 cs h1
  omega

/-- Two blocks of two lines stay where they are and one of three lines is moved from the front to the end: the diff keeps the
three lines. -/
example : changesOf .debug ([1, 2, 3, 4, 5, 6, 7] : List UInt8) [4, 5, 8, 6, 7, 9, 1, 2, 3] =
      .ok [.insert 0 ⟨0, 6⟩, .noChange ⟨0, 6, 3⟩, .delete ⟨3, 7⟩ 9] ∧
    unchanged ([1, 2, 3, 4, 5, 6, 7] : List UInt8) [4, 5, 8, 6, 7, 9, 1, 2, 3]
      [.insert 0 ⟨0, 6⟩, .noChange ⟨0, 6, 3⟩, .delete ⟨3, 7⟩ 9] = 3 := by
  decide +kernel

example := C116_bound .debug ([1, 2, 3, 4, 5, 6, 7] : List UInt8) [4, 5, 8, 6, 7, 9, 1, 2, 3] [.insert 0 ⟨0, 6⟩, .noChange ⟨0, 6, 3⟩, .delete ⟨3, 7⟩ 9]
  (by decide +kernel) [⟨3, 0, 2⟩, ⟨5, 3, 2⟩] ⟨by decide, by decide, (commonRun_iff_cut (by decide) (by decide)).2 (by decide), by decide, by decide,
    (commonRun_iff_cut (by decide) (by decide)).2 (by decide), trivial⟩

end PwDiff
