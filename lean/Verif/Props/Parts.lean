import Verif.Proofs.Basic
import Verif.Model.Sequence
import Verif.Spec

/-! # C96: ranges, common runs and snippets; machine words -/

namespace PwDiff

variable {T : Type}

/-! ## Machine words

Not a property of the code: the arithmetic of the model is that of 64-bit words. -/

/-- In release builds the results wrap around, in debug builds an overflow panics. -/
theorem words_unsigned (p : Profile) (a b : Nat) (ha : a < wordSize) (hb : b < wordSize) :
    (∀ n, uadd p a b = .ok n → n < wordSize ∧ n % wordSize = (a + b) % wordSize) ∧
    (∀ n, usub p a b = .ok n → n < wordSize ∧ (n + b) % wordSize = a) ∧
    (uadd p a b = .panic ↔ p = .debug ∧ wordSize ≤ a + b) ∧ (usub p a b = .panic ↔ p = .debug ∧ a < b) := by
  unfold uadd usub wordSize at *
  refine ⟨?_, ?_, ?_, ?_⟩
  · intro n
    split
    · intro h; cases h; exact ⟨by assumption, rfl⟩
    · cases p
      · intro h; cases h
      · intro h; cases h; exact ⟨Nat.mod_lt _ (by decide), Nat.mod_mod _ _⟩
  · intro n
    split
    · intro h; cases h; exact ⟨by omega, by omega⟩
    · cases p
      · intro h; cases h
      · intro h; cases h; exact ⟨Nat.mod_lt _ (by decide), by omega⟩
  · split
    · constructor
      · intro h; cases h
      · intro h; omega
    · cases p
      · exact ⟨fun _ => ⟨rfl, by omega⟩, fun _ => rfl⟩
      · constructor
        · intro h; cases h
        · intro h; cases h.1
  · split
    · constructor
      · intro h; cases h
      · intro h; omega
    · cases p
      · exact ⟨fun _ => ⟨rfl, by omega⟩, fun _ => rfl⟩
      · constructor
        · intro h; cases h
        · intro h; cases h.1

/-- The value is one of `isize`. -/
def IsIsize (i : Int) : Prop := -(2 ^ 63) ≤ i ∧ i < 2 ^ 63

/-- The same for signed words, and the conversions keep the value modulo the number of words. -/
theorem words_signed (p : Profile) (a b : Int) :
    (∀ i, iadd p a b = .ok i → IsIsize i ∧ i % (2 ^ 64) = (a + b) % (2 ^ 64)) ∧
    (iadd p a b = .panic ↔ p = .debug ∧ ¬ IsIsize (a + b)) ∧
    (∀ n : Nat, n < 2 ^ 64 → IsIsize (asIsize n) ∧ asIsize n % (2 ^ 64) = n ∧ asUsize (asIsize n) = n) ∧
    (∀ i : Int, IsIsize i → asUsize i < 2 ^ 64 ∧ asIsize (asUsize i) = i) := by
  unfold iadd asIsize asUsize wrapI IsIsize wordSize halfWord
  refine ⟨?_, ?_, ?_, ?_⟩
  · intro n
    split
    · intro h; cases h; exact ⟨by omega, by omega⟩
    · cases p
      · intro h; cases h
      · intro h; cases h; exact ⟨by omega, by omega⟩
  · split
    · constructor
      · intro h; cases h
      · intro h; omega
    · cases p
      · exact ⟨fun _ => ⟨rfl, by omega⟩, fun _ => rfl⟩
      · constructor
        · intro h; cases h
        · intro h; cases h.1
  · intro n hn
    split
    · refine ⟨by omega, by omega, ?_⟩
      split <;> omega
    · refine ⟨by omega, by omega, ?_⟩
      split <;> omega
  · intro i hi
    split
    · refine ⟨by omega, ?_⟩
      split <;> omega
    · refine ⟨by omega, ?_⟩
      split <;> omega

/-! ## C96 -/

/-- `Range`: the positions in it, their number, whether there is any, and whether the range can be cut out of `n` items. -/
theorem C96_range (r : Range) (n : Nat) :
    r.len = ((List.range r.fin).filter fun i => r.start ≤ i).length ∧
    (r.isEmpty = true ↔ ¬ ∃ i, r.start ≤ i ∧ i < r.fin) ∧
    (r.isValid = true ↔ r.start ≤ r.fin) ∧
    (r.isValidForMaxEnd n = true ↔ ∀ l : List Unit, l.length = n → slice l r.start r.fin = .ok (List.replicate r.len ())) := by
  have hlen : r.len = r.fin - r.start := by
    unfold Range.len
    split <;> omega
  refine ⟨?_, ?_, ?_, ?_⟩
  · rw [hlen]
    generalize r.fin = m
    induction m with
    | zero => simp
    | succ m ih =>
      rw [List.range_succ, List.filter_append, List.length_append, ← ih]
      by_cases h : r.start ≤ m
      · simp [h]; omega
      · simp [h]; omega
  · unfold Range.isEmpty
    rw [hlen]
    constructor
    · intro h
      have := eq_of_beq h
      rintro ⟨i, h1, h2⟩
      omega
    · intro h
      rw [beq_iff_eq]
      by_cases hs : r.start < r.fin
      · exact absurd ⟨r.start, Nat.le_refl _, hs⟩ h
      · omega
  · simp [Range.isValid]
  · simp only [Range.isValidForMaxEnd, Range.isValid, Bool.and_eq_true, decide_eq_true_eq]
    unfold slice
    constructor
    · intro h l hl
      rw [if_pos ⟨h.1, by omega⟩, hlen]
      congr 1
      apply List.ext_getElem
      · simp; omega
      · intros; rfl
    · intro h
      have := h (List.replicate n ()) (by simp)
      split at this
      · next h => simpa using h
      · cases this

namespace CommonSubsequence

/-- The run pairs position `i` of the first sequence with position `j` of the second one. -/
def Pairs (c : CommonSubsequence) (i j : Nat) : Prop := ∃ k, k < c.n ∧ i = c.b + k ∧ j = c.a + k

end CommonSubsequence

/-- The accessors of a run: the ranges are the positions that occur in its pairs. -/
theorem C96_run (c : CommonSubsequence) :
    c.beforeRange = ⟨c.beforeStart, c.beforeEnd⟩ ∧ c.afterRange = ⟨c.afterStart, c.afterEnd⟩ ∧
    (∀ i, (∃ j, c.Pairs i j) ↔ c.beforeStart ≤ i ∧ i < c.beforeEnd) ∧ (∀ j, (∃ i, c.Pairs i j) ↔ c.afterStart ≤ j ∧ j < c.afterEnd) ∧
    c.beforeRange.len = c.len ∧ c.afterRange.len = c.len ∧ (c.isEmpty = true ↔ ∀ i j, ¬ c.Pairs i j) := by
  have hl : ∀ s n : Nat, (Range.mk s (s + n)).len = n := by
    intro s n
    unfold Range.len
    simp only
    split <;> omega
  refine ⟨rfl, rfl, ?_, ?_, hl _ _, hl _ _, ?_⟩
  · intro i
    constructor
    · rintro ⟨j, k, h, rfl, rfl⟩
      exact ⟨Nat.le_add_right _ _, Nat.add_lt_add_left h _⟩
    · rintro ⟨h1, h2⟩
      simp only [CommonSubsequence.beforeStart, CommonSubsequence.beforeEnd] at h1 h2
      exact ⟨c.a + (i - c.b), i - c.b, by omega, by omega, rfl⟩
  · intro j
    constructor
    · rintro ⟨i, k, h, rfl, rfl⟩
      exact ⟨Nat.le_add_right _ _, Nat.add_lt_add_left h _⟩
    · rintro ⟨h1, h2⟩
      simp only [CommonSubsequence.afterStart, CommonSubsequence.afterEnd] at h1 h2
      exact ⟨c.b + (j - c.a), j - c.a, by omega, rfl, by omega⟩
  · unfold CommonSubsequence.isEmpty
    rw [beq_iff_eq]
    constructor
    · rintro h i j ⟨k, hk, -⟩
      omega
    · intro h
      by_cases hn : c.n = 0
      · exact hn
      · exact absurd ⟨0, by omega, rfl, rfl⟩ (h c.b c.a)

/-- Growing a run by `d` adds the `d` pairs that precede it, or that follow it. -/
theorem C96_grow (p : Profile) (c : CommonSubsequence) (d : Nat) :
    (d ≤ c.beforeStart → d ≤ c.afterStart → ∃ e, c.incrSizeMovingStarts p d = .ok e ∧
      ∀ i j, e.Pairs i j ↔ c.Pairs i j ∨ ∃ k, 1 ≤ k ∧ k ≤ d ∧ i = c.beforeStart - k ∧ j = c.afterStart - k) ∧
    (∀ i j, (c.incrSizeMovingEnds d).Pairs i j ↔ c.Pairs i j ∨ ∃ k, k < d ∧ i = c.beforeEnd + k ∧ j = c.afterEnd + k) := by
  constructor
  · intro h1 h2
    simp only [CommonSubsequence.beforeStart, CommonSubsequence.afterStart] at h1 h2 ⊢
    refine ⟨⟨c.b - d, c.a - d, c.n + d⟩, ?_, ?_⟩
    · unfold CommonSubsequence.incrSizeMovingStarts
      rw [usub_ok h1, Outcome.ok_bind, usub_ok h2]
      rfl
    · intro i j
      constructor
      · rintro ⟨k, hk, rfl, rfl⟩
        simp only at hk
        by_cases hd : k < d
        · exact .inr ⟨d - k, by omega, by omega, by simp only; omega, by simp only; omega⟩
        · exact .inl ⟨k - d, by omega, by simp only; omega, by simp only; omega⟩
      · rintro (⟨k, hk, rfl, rfl⟩ | ⟨k, hk, hk', rfl, rfl⟩)
        · exact ⟨k + d, by simp only; omega, by simp only; omega, by simp only; omega⟩
        · exact ⟨d - k, by simp only; omega, by simp only; omega, by simp only; omega⟩
  · intro i j
    simp only [CommonSubsequence.beforeEnd, CommonSubsequence.afterEnd]
    constructor
    · rintro ⟨k, hk, rfl, rfl⟩
      simp only [CommonSubsequence.incrSizeMovingEnds] at hk ⊢
      by_cases hd : k < c.n
      · exact .inl ⟨k, hd, rfl, rfl⟩
      · exact .inr ⟨k - c.n, by omega, by omega, by omega⟩
    · rintro (⟨k, hk, rfl, rfl⟩ | ⟨k, hk, rfl, rfl⟩)
      · exact ⟨k, by simp only [CommonSubsequence.incrSizeMovingEnds]; omega, rfl, rfl⟩
      · exact ⟨c.n + k, by simp only [CommonSubsequence.incrSizeMovingEnds]; omega,
          by simp only [CommonSubsequence.incrSizeMovingEnds]; omega, by simp only [CommonSubsequence.incrSizeMovingEnds]; omega⟩

/-- Trimming a run to `size` pairs keeps the last ones, or the first ones; a run is split exactly if it is long enough for
both parts not to overlap, into its first and its last `size` pairs. -/
theorem C96_trim (c : CommonSubsequence) (size : Nat) :
    (∀ i j, (c.startsTrimmed size).Pairs i j ↔ c.Pairs i j ∧ c.beforeEnd ≤ i + size) ∧
    (∀ i j, (c.endsTrimmed size).Pairs i j ↔ c.Pairs i j ∧ i < c.beforeStart + size) ∧
    (c.split size = if 2 * size ≤ c.len then some (c.endsTrimmed size, c.startsTrimmed size) else none) ∧
    (∀ head tail, c.split size = some (head, tail) → head.len = size ∧ tail.len = size ∧
      ∀ i j, ¬ (head.Pairs i j ∧ tail.Pairs i j)) := by
  have h1 : ∀ i j, (c.startsTrimmed size).Pairs i j ↔ c.Pairs i j ∧ c.beforeEnd ≤ i + size := by
    intro i j
    simp only [CommonSubsequence.beforeEnd, CommonSubsequence.startsTrimmed]
    constructor
    · rintro ⟨k, hk, rfl, rfl⟩
      simp only at hk ⊢
      exact ⟨⟨c.n - min c.n size + k, by omega, by omega, by omega⟩, by omega⟩
    · rintro ⟨⟨k, hk, rfl, rfl⟩, h⟩
      exact ⟨k - (c.n - min c.n size), by simp only; omega, by simp only; omega, by simp only; omega⟩
  have h2 : ∀ i j, (c.endsTrimmed size).Pairs i j ↔ c.Pairs i j ∧ i < c.beforeStart + size := by
    intro i j
    simp only [CommonSubsequence.beforeStart, CommonSubsequence.endsTrimmed]
    constructor
    · rintro ⟨k, hk, rfl, rfl⟩
      simp only at hk ⊢
      exact ⟨⟨k, by omega, rfl, rfl⟩, by omega⟩
    · rintro ⟨⟨k, hk, rfl, rfl⟩, h⟩
      exact ⟨k, by simp only; omega, rfl, rfl⟩
  refine ⟨h1, h2, ?_, ?_⟩
  · unfold CommonSubsequence.split CommonSubsequence.len
    by_cases h : 2 * size ≤ c.n
    · rw [if_pos h, if_pos (by omega)]
    · rw [if_neg h, if_neg (by omega)]
  · intro head tail h
    unfold CommonSubsequence.split at h
    split at h
    · cases h
      refine ⟨?_, ?_, ?_⟩
      · simp only [CommonSubsequence.len, CommonSubsequence.endsTrimmed]; omega
      · simp only [CommonSubsequence.len, CommonSubsequence.startsTrimmed]; omega
      · rintro i j ⟨g1, g2⟩
        have g1 := (h2 i j).1 g1
        have g2 := (h1 i j).1 g2
        simp only [CommonSubsequence.beforeStart, CommonSubsequence.beforeEnd] at g1 g2
        omega
    · cases h

example : (CommonSubsequence.mk 5 7 4).incrSizeMovingStarts .debug 3 = .ok ⟨2, 4, 7⟩ := by decide
example : (CommonSubsequence.mk 5 7 4).split 2 = some (⟨5, 7, 2⟩, ⟨7, 9, 2⟩) ∧ (CommonSubsequence.mk 5 7 4).split 3 = none := by decide

/-- The accessors of a snippet with reductions that fit into it: the range selects the items that are left, the adjusted
length is their number, and the adjusted start is where they stand, displaced by the offset. -/
theorem C96_snippet [DecidableEq T] (p : Profile) (s : Snippet T) (r : Nat × Nat) (offset : Int) (hr : r.1 + r.2 ≤ s.items.length)
    (hw : s.start + s.items.length < wordSize) :
    (∃ range, s.range p (some r) = .ok range ∧ s.itemsIn p (some range) = .ok (trim r s.items)) ∧
    (∃ range, s.range p none = .ok range ∧ s.itemsIn p (some range) = .ok s.items) ∧
    s.adjLength p (some r) = .ok (trim r s.items).length ∧ s.adjLength p none = .ok s.items.length ∧
    (∀ n : Nat, (n : Int) = s.start + offset → n + r.1 < wordSize →
      s.adjStart p offset none = .ok n ∧ s.adjStart p offset (some r) = .ok (n + r.1)) ∧
    (s.start + offset < 0 ∨ (wordSize : Int) ≤ s.start + offset →
      s.adjStart p offset none = .panic ∧ s.adjStart p offset (some r) = .panic) := by
  obtain ⟨r0, r1⟩ := r
  simp only at hr
  have items : ∀ a b, a ≤ b → b ≤ s.items.length →
      s.itemsIn p (some ⟨a, b⟩) = .ok ((s.items.drop a).take (b - a)) := by
    intro a b hab hb
    have hs : slice s.items a b = .ok ((s.items.drop a).take (b - a)) := by
      unfold slice
      rw [if_pos ⟨hab, hb⟩]
    unfold Snippet.itemsIn
    cases p with
    | release => exact hs
    | debug =>
      simp only [Snippet.len]
      rw [uadd_ok (by omega)]
      have : (Range.mk a b).isValidForMaxEnd (s.items.length + s.start) = true := by
        simp only [Range.isValidForMaxEnd, Range.isValid, Bool.and_eq_true, decide_eq_true_eq]
        omega
      simp only [Outcome.ok_bind, debugAssert, this, if_true]
      exact hs
  refine ⟨⟨⟨r0, s.items.length - r1⟩, ?_, ?_⟩, ⟨⟨0, s.items.length⟩, rfl, ?_⟩, ?_, rfl, ?_, ?_⟩
  · unfold Snippet.range
    simp only
    rw [usub_ok (by omega)]
    rfl
  · rw [items _ _ (by omega) (by omega)]
    unfold trim
    simp only
    rw [List.drop_take]
  · rw [items _ _ (by omega) (by omega)]
    simp
  · unfold Snippet.adjLength trim
    simp only
    rw [usub_ok (by omega), Outcome.ok_bind, usub_ok (by omega)]
    simp only [List.length_drop, List.length_take, Outcome.ok.injEq]
    omega
  · intro n hn hlt
    have : Snippet.checkedAddSigned s.start offset = .ok n := by
      unfold Snippet.checkedAddSigned
      rw [← hn, if_pos ⟨by omega, by omega⟩]
      rfl
    refine ⟨this, ?_⟩
    unfold Snippet.adjStart
    simp only
    rw [this, Outcome.ok_bind, uadd_ok (by simp only at hlt; omega), Nat.add_comm]
  · intro h
    have : Snippet.checkedAddSigned s.start offset = .panic := by
      unfold Snippet.checkedAddSigned
      rw [if_neg (by omega)]
    refine ⟨this, ?_⟩
    unfold Snippet.adjStart
    simp only
    rw [this]
    rfl

example : (Snippet.mk 4 [1, 2, 3, 4]).range .debug (some (1, 1)) = .ok ⟨1, 3⟩ ∧
    (Snippet.mk 4 [1, 2, 3, 4]).itemsIn .debug (some ⟨1, 3⟩) = .ok [2, 3] ∧
    (Snippet.mk 4 [1, 2, 3, 4]).adjStart .debug (-4) none = .ok 0 ∧
    (Snippet.mk 4 [1, 2, 3, 4]).adjStart .debug (-5) none = .panic := by decide +kernel

/-- Writing a snippet writes the bytes of the items that the reductions leave; reductions that do not fit into it are a
panic in both builds, and then nothing is written. -/
theorem C96_write [DecidableEq T] [Item T] [LawfulItem T] (p : Profile) (s : Snippet T) (r : Nat × Nat) (hb : r.2 < 256) :
    s.writeInto p none = writeAll (bytesOf s.items) ∧
    (r.1 + r.2 ≤ s.items.length → s.writeInto p (some r) = writeAll (bytesOf (trim r s.items))) ∧
    (s.items.length < r.1 + r.2 → ∀ w, s.writeInto p (some r) w = (.panic, w)) := by
  obtain ⟨r0, r1⟩ := r
  simp only at hb
  have step : ∀ x o, usub p s.items.length r1 = .ok x → slice s.items r0 x = o →
      s.writeInto p (some (r0, r1)) = fun w => WM.bind (WM.lift o) Item.writeItems w := by
    intro x o hx ho
    unfold Snippet.writeInto
    simp only
    rw [hx, ← ho]
    rfl
  refine ⟨LawfulItem.writeItems_eq _, ?_, ?_⟩
  · intro hr
    simp only at hr
    rw [step _ (.ok ((s.items.drop r0).take (s.items.length - r1 - r0))) (usub_ok (by omega))
      (by unfold slice; rw [if_pos ⟨by omega, by omega⟩])]
    refine Eq.trans (LawfulItem.writeItems_eq _) ?_
    unfold trim bytesOf
    simp only
    rw [List.drop_take]
  · intro hr w
    simp only at hr
    have hs : ∀ x, x < r0 ∨ s.items.length < x → slice s.items r0 x = .panic := by
      intro x hx
      unfold slice
      rw [if_neg (by omega)]
    by_cases h : r1 ≤ s.items.length
    · rw [step _ _ (usub_ok h) (hs _ (.inl (by omega)))]
      rfl
    · cases p with
      | debug =>
        unfold Snippet.writeInto usub
        simp only
        rw [if_neg h]
        rfl
      | release =>
        rw [step ((wordSize + s.items.length - r1) % wordSize) _ (by unfold usub; rw [if_neg h])
          (hs _ (.inr (by unfold wordSize; omega)))]
        rfl

example : ((Snippet.mk 4 [1, 2, 3, 4] : Snippet UInt8).writeInto .debug (some (1, 2))).run = (.ok (), [2]) ∧
    ((Snippet.mk 4 [1, 2, 3, 4] : Snippet UInt8).writeInto .release (some (3, 2))).run = (.panic, []) ∧
    ((Snippet.mk 0 [['a', '\n'], ['b']] : Snippet Str).writeInto .debug (some (1, 0))).run = (.ok (), [98]) := by decide +kernel

end PwDiff
