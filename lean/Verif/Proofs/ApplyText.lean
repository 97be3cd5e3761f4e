import Verif.Proofs.Clumps
import Verif.Props.Sequence

/-! # Lemmas about applying text clumps -/

namespace PwDiff

open ChangeBasics TextClump

variable {T C : Type}

/-! ## Standing at a position -/

theorem standsAt_iff (ls l : List T) (pos : Int) :
    StandsAt ls l pos ↔ 0 ≤ pos ∧ pos.toNat + ls.length ≤ l.length ∧ cut l pos.toNat (pos.toNat + ls.length) = ls := by
  constructor
  · rintro ⟨pre, post, rfl, rfl⟩
    refine ⟨by omega, by simp, ?_⟩
    simp [cut, List.append_assoc]
  · rintro ⟨h1, h2, h3⟩
    refine ⟨l.take pos.toNat, l.drop (pos.toNat + ls.length), ?_, ?_⟩
    · have : l = l.take pos.toNat ++ l.drop pos.toNat := (List.take_append_drop _ _).symm
      rw [List.append_assoc]
      conv => lhs; rw [this]
      congr 1
      unfold cut at h3
      rw [show pos.toNat + ls.length - pos.toNat = ls.length by omega] at h3
      conv => lhs; rw [← List.take_append_drop ls.length (l.drop pos.toNat), h3]
      rw [List.drop_drop]
    · simp; omega

theorem standsAt_nat (ls l : List T) (pos : Nat) :
    StandsAt ls l pos ↔ pos + ls.length ≤ l.length ∧ cut l pos (pos + ls.length) = ls := by
  rw [standsAt_iff]
  simp

theorem trim_eq_cut (r : Nat × Nat) (ls : List T) : trim r ls = cut ls r.1 (ls.length - r.2) := by
  simp [trim, cut, List.drop_take]

theorem length_trim (r : Nat × Nat) (ls : List T) (h : r.1 + r.2 ≤ ls.length) :
    (trim r ls).length = ls.length - r.1 - r.2 := by
  rw [trim_eq_cut, length_cut _ _ _ (by omega)]
  omega

theorem fits_unique {old : List T} {ctx : Nat × Nat} {l : List T} {pos : Int} {r r' : Option WillApply}
    (h : Fits old ctx l pos r) (h' : Fits old ctx l pos r') : r = r' := by
  rcases r with _ | (_ | rr) <;> rcases r' with _ | (_ | rr')
  · rfl
  · exact absurd h' h.1
  · obtain ⟨-, k, h1, h2, rfl, h3, -⟩ := h'
    exact absurd h3 (h.2 k h1 h2)
  · exact absurd h h'.1
  · rfl
  · exact absurd h h'.1
  · obtain ⟨-, k, h1, h2, rfl, h3, -⟩ := h
    exact absurd h3 (h'.2 k h1 h2)
  · exact absurd h' h.1
  · obtain ⟨-, k, h1, h2, rfl, h3, h4⟩ := h
    obtain ⟨-, k', h1', h2', rfl, h3', h4'⟩ := h'
    rcases Nat.lt_trichotomy k k' with hk | hk | hk
    · exact absurd h3 (h4' k h1 hk)
    · rw [hk]
    · exact absurd h3' (h4 k' h1' hk)

/-! ## What a clump is, seen through the trait -/

/-- The side of clump `c` that `reverse` selects as "before" consists of `items` starting at line `s`. -/
structure SideIs [TextClump C T] (p : Profile) (c : C) (reverse : Bool) (s : Nat) (items : List T) : Prop where
  start : beforeStart c reverse = s
  fin : beforeEnd p c reverse = .ok (s + items.length)
  length : beforeLength p c reverse = .ok items.length
  whole : beforeLines p c none reverse = .ok items
  part : ∀ r : Range, r.start ≤ r.fin → r.fin ≤ items.length →
    beforeLines p c (some r) reverse = .ok (cut items r.start r.fin)
  bad : ∀ r : Range, ¬ (r.start ≤ r.fin ∧ r.fin ≤ items.length) → beforeLines p c (some r) reverse = .panic
  small : s + items.length < halfWord

theorem sideIs_diffClump (p : Profile) (c : DiffClump T) (reverse : Bool)
    (h : (c.beforeSide reverse).start + (c.beforeSide reverse).items.length < halfWord) :
    SideIs p c reverse (c.beforeSide reverse).start (c.beforeSide reverse).items := by
  have hw : (c.beforeSide reverse).start + (c.beforeSide reverse).items.length < wordSize := by
    simp only [wordSize, halfWord] at *; omega
  refine ⟨rfl, uadd_ok hw, ?_, rfl, ?_, ?_, h⟩
  · show defaultBeforeLength p _ _ = _
    unfold defaultBeforeLength
    rw [uadd_ok hw]
    simp only [Outcome.ok_bind]
    rw [usub_ok (by omega)]
    congr 1; omega
  · intro r h1 h2
    show Snippet.itemsIn p _ _ = _
    unfold Snippet.itemsIn
    cases p with
    | debug =>
      simp only [Snippet.len]
      rw [uadd_ok (by omega)]
      have : debugAssert .debug (r.isValidForMaxEnd ((c.beforeSide reverse).items.length + (c.beforeSide reverse).start)) = .ok () := by
        simp [debugAssert, Range.isValidForMaxEnd, Range.isValid, h1]; omega
      simp only [Outcome.ok_bind, this]
      rw [slice_ok h1 h2]; rfl
    | release =>
      show slice _ _ _ = _
      rw [slice_ok h1 h2]; rfl
  · intro r hr
    show Snippet.itemsIn p _ _ = _
    unfold Snippet.itemsIn
    have hs : slice (c.beforeSide reverse).items r.start r.fin = .panic := by
      unfold slice; rw [if_neg hr]
    cases p with
    | debug =>
      simp only [Snippet.len]
      rw [uadd_ok (by omega)]
      simp only [Outcome.ok_bind, debugAssert]
      split <;> simp [hs]
    | release =>
      exact hs

variable [TextClump C T] {p : Profile} {c : C} {reverse : Bool} {s : Nat} {items : List T}

theorem SideIs.adjustedStart (h : SideIs p c reverse s items) {offset : Int} (h1 : -(halfWord : Int) ≤ s + offset)
    (h2 : (s : Int) + offset < halfWord) : beforeAdjustedStart p c offset none reverse = .ok (s + offset) := by
  unfold beforeAdjustedStart
  have := h.small
  simp only [h.start]
  rw [asIsize_of_lt (by omega), iadd_ok h1 h2]

theorem SideIs.adjustedStartSome (h : SideIs p c reverse s items) {offset : Int} {r : Nat × Nat}
    (h1 : -(halfWord : Int) ≤ s + offset) (h2 : (s : Int) + offset + r.1 < halfWord) :
    beforeAdjustedStart p c offset (some r) reverse = .ok (s + offset + r.1) := by
  unfold beforeAdjustedStart
  have := h.small
  simp only [h.start]
  rw [asIsize_of_lt (by omega), iadd_ok h1 (by omega)]
  simp only [Outcome.ok_bind]
  rw [iadd_ok (by omega) h2]

theorem SideIs.adjustedLength (h : SideIs p c reverse s items) :
    beforeAdjustedLength p c none reverse = .ok items.length := h.length

theorem SideIs.adjustedLengthSome (h : SideIs p c reverse s items) {r : Nat × Nat} (hr : r.1 + r.2 ≤ items.length) :
    beforeAdjustedLength p c (some r) reverse = .ok (items.length - r.1 - r.2) := by
  unfold beforeAdjustedLength
  simp only [h.length, Outcome.ok_bind]
  rw [usub_ok (by omega)]
  simp only [Outcome.ok_bind]
  rw [usub_ok (by omega)]

theorem SideIs.myRange (h : SideIs p c reverse s items) : myBeforeRange p c none reverse = .ok ⟨0, items.length⟩ := by
  unfold myBeforeRange
  simp [h.length]

theorem SideIs.myRangeSome (h : SideIs p c reverse s items) {r : Nat × Nat} (hr : r.2 ≤ items.length) :
    myBeforeRange p c (some r) reverse = .ok ⟨r.1, items.length - r.2⟩ := by
  unfold myBeforeRange
  simp only [h.length, Outcome.ok_bind]
  rw [usub_ok hr]; rfl

theorem all_zip_eq' [DecidableEq T] (xs ys : List T) (h : xs.length = ys.length) :
    ((xs.zip ys).all (fun (l, r) => l == r)) = true ↔ ys = xs := by
  induction xs generalizing ys with
  | nil => cases ys <;> simp_all
  | cons x xs ih =>
    cases ys with
    | nil => simp at h
    | cons y ys =>
      simp at h
      simp only [List.zip_cons_cons, List.all_cons, Bool.and_eq_true, beq_iff_eq, List.cons.injEq]
      rw [ih ys h]
      exact ⟨fun ⟨a, b⟩ => ⟨a.symm, b⟩, fun ⟨a, b⟩ => ⟨a.symm, b⟩⟩

/-- The common part of the two cases of `before_is_subsequence_in_at`. -/
theorem isSub_core [DecidableEq T] (p : Profile) (c : C) (l : List T) (pos : Nat) (reductions : Option (Nat × Nat))
    (reverse : Bool) (r : Range) (ls : List T) (h1 : myBeforeRange p c reductions reverse = .ok r)
    (h2 : beforeLines p c (some r) reverse = .ok ls) (h3 : r.len = ls.length) (h4 : pos + ls.length < wordSize) :
    ∃ b, beforeIsSubsequenceInAt p c l pos reductions reverse = .ok b ∧ (b = true ↔ StandsAt ls l pos) := by
  unfold beforeIsSubsequenceInAt
  rw [h1]
  simp only [Outcome.ok_bind]
  rw [h3, uadd_ok h4]
  simp only [Outcome.ok_bind]
  rw [standsAt_nat]
  by_cases hgt : pos + ls.length > l.length
  · rw [if_pos hgt]
    refine ⟨false, rfl, ?_⟩
    simp; omega
  · rw [if_neg hgt, h2]
    simp only [Outcome.ok_bind]
    rw [subsequence_ok (by simp) (by simp; omega)]
    simp only [Outcome.ok_bind]
    refine ⟨_, rfl, ?_⟩
    have hlen : ls.length = (cut l pos (pos + ls.length)).length := by
      rw [length_cut _ _ _ (by omega)]; omega
    rw [all_zip_eq' ls _ hlen]
    exact ⟨fun h => ⟨by omega, h⟩, fun h => h.2⟩

theorem SideIs.isSub [DecidableEq T] (h : SideIs p c reverse s items) (l : List T) {pos : Nat}
    (hpos : pos + items.length < wordSize) :
    ∃ b, beforeIsSubsequenceInAt p c l pos none reverse = .ok b ∧ (b = true ↔ StandsAt items l pos) := by
  refine isSub_core p c l pos none reverse _ items h.myRange ?_ ?_ hpos
  · rw [h.part _ (by simp) (by simp)]
    simp [cut]
  · simp only [Range.len]; split <;> omega

theorem SideIs.isSubSome [DecidableEq T] (h : SideIs p c reverse s items) (l : List T) {pos : Nat} {r : Nat × Nat}
    (hr : r.1 + r.2 ≤ items.length) (hpos : pos + (items.length - r.1 - r.2) < wordSize) :
    ∃ b, beforeIsSubsequenceInAt p c l pos (some r) reverse = .ok b ∧ (b = true ↔ StandsAt (trim r items) l pos) := by
  refine isSub_core p c l pos (some r) reverse _ (trim r items) (h.myRangeSome (by omega)) ?_ ?_ ?_
  · rw [h.part _ (by simp; omega) (by simp), trim_eq_cut]
  · rw [length_trim r items hr]
    simp only [Range.len]; split <;> omega
  · rw [length_trim r items hr]; exact hpos

/-- Context lengths that fit into the lines. -/
def CtxFits (ctx : Nat × Nat) (items : List T) : Prop := ctx.1 + ctx.2 ≤ items.length

theorem reductionLoop_spec [DecidableEq T] (h : SideIs p c reverse s items) (hc : CtxFits (contextLengths c) items)
    (l : List T) {start : Int} (h1 : -(halfWord : Int) ≤ start) (h2 : start + items.length < halfWord) (m a : Nat) (ha : 1 ≤ a) :
    ∃ r, reductionLoop p c l start reverse (List.range' a m) = .ok r ∧
      ((r = none ∧ ∀ k, a ≤ k → k < a + m →
          ¬ StandsAt (trim (redn (contextLengths c) k) items) l (start + (redn (contextLengths c) k).1)) ∨
       ∃ k, a ≤ k ∧ k < a + m ∧ r = some (.withReductions (redn (contextLengths c) k)) ∧
          StandsAt (trim (redn (contextLengths c) k) items) l (start + (redn (contextLengths c) k).1) ∧
          ∀ k', a ≤ k' → k' < k →
            ¬ StandsAt (trim (redn (contextLengths c) k') items) l (start + (redn (contextLengths c) k').1)) := by
  induction m generalizing a with
  | zero =>
    refine ⟨none, by simp [reductionLoop], .inl ⟨rfl, ?_⟩⟩
    intro k _ _; omega
  | succ m ih =>
    rw [List.range'_succ]
    rw [reductionLoop]
    have hsum : (redn (contextLengths c) a).1 + (redn (contextLengths c) a).2 ≤ items.length := by
      unfold CtxFits at hc
      simp only [redn]; omega
    have hadd : iadd p start ((min a (contextLengths c).1 : Nat) : Int) = .ok (start + (redn (contextLengths c) a).1) := by
      unfold CtxFits at hc
      apply iadd_ok <;> omega
    simp only
    rw [hadd]
    simp only [Outcome.ok_bind]
    have hb : ∃ b, (∀ k : Bool → Outcome (Option WillApply), (if start + (redn (contextLengths c) a).1 < 0 then pure false >>= k
        else beforeIsSubsequenceInAt p c l (asUsize (start + (redn (contextLengths c) a).1))
          (some (min a (contextLengths c).1, min a (contextLengths c).2)) reverse >>= k) = k b) ∧
        (b = true ↔ StandsAt (trim (redn (contextLengths c) a) items) l (start + (redn (contextLengths c) a).1)) := by
      by_cases hneg : start + ((redn (contextLengths c) a).1 : Int) < 0
      · refine ⟨false, fun k => by rw [if_pos hneg]; rfl, ?_⟩
        rw [standsAt_iff]
        constructor
        · intro h; simp at h
        · intro h; omega
      · rw [asUsize_of_nonneg (by omega)]
        obtain ⟨b, e1, e2⟩ := h.isSubSome l (pos := (start + ((redn (contextLengths c) a).1 : Int)).toNat) hsum (by
          have : (redn (contextLengths c) a).1 ≤ items.length := by omega
          simp only [wordSize, halfWord] at *
          omega)
        refine ⟨b, fun k => by
          have e1' : beforeIsSubsequenceInAt p c l (start + ((redn (contextLengths c) a).1 : Int)).toNat
            (some (min a (contextLengths c).1, min a (contextLengths c).2)) reverse = .ok b := e1
          rw [if_neg hneg, e1']; rfl, ?_⟩
        rw [e2, show (((start + ((redn (contextLengths c) a).1 : Int)).toNat : Nat) : Int) = start + (redn (contextLengths c) a).1 by omega]
    obtain ⟨b, e1, e2⟩ := hb
    rw [e1]
    cases b with
    | true =>
      rw [if_pos rfl]
      refine ⟨_, rfl, .inr ⟨a, by omega, by omega, rfl, e2.1 rfl, ?_⟩⟩
      intro k' _ _; omega
    | false =>
      rw [if_neg (by simp)]
      obtain ⟨r, f1, f2⟩ := ih (a + 1) (by omega)
      refine ⟨r, f1, ?_⟩
      have hno : ¬ StandsAt (trim (redn (contextLengths c) a) items) l (start + (redn (contextLengths c) a).1) := by
        intro hh; simpa using e2.2 hh
      rcases f2 with ⟨g1, g2⟩ | ⟨k, g1, g2, g3, g4, g5⟩
      · left
        refine ⟨g1, ?_⟩
        intro k hk1 hk2
        by_cases hka : k = a
        · subst hka; exact hno
        · exact g2 k (by omega) (by omega)
      · right
        refine ⟨k, by omega, by omega, g3, g4, ?_⟩
        intro k' hk1 hk2
        by_cases hka : k' = a
        · subst hka; exact hno
        · exact g5 k' (by omega) (by omega)

/-- `will_apply` answers the question of `Fits`. -/
theorem willApply_spec [DecidableEq T] (h : SideIs p c reverse s items) (hc : CtxFits (contextLengths c) items)
    (l : List T) {offset : Int} (h1 : -(halfWord : Int) ≤ s + offset) (h2 : s + offset + items.length < halfWord) :
    ∃ r, willApply p c l offset reverse = .ok r ∧ Fits items (contextLengths c) l (s + offset) r := by
  unfold willApply
  rw [h.adjustedStart h1 (by omega)]
  simp only [Outcome.ok_bind]
  have hb : ∃ b, (∀ k : Bool → Outcome (Option WillApply), (if (s : Int) + offset < 0 then pure false >>= k
      else beforeIsSubsequenceInAt p c l (asUsize (s + offset)) none reverse >>= k) = k b) ∧
      (b = true ↔ StandsAt items l (s + offset)) := by
    by_cases hneg : (s : Int) + offset < 0
    · refine ⟨false, fun k => by rw [if_pos hneg]; rfl, ?_⟩
      rw [standsAt_iff]
      constructor
      · intro h; simp at h
      · intro h; omega
    · rw [asUsize_of_nonneg (by omega)]
      obtain ⟨b, e1, e2⟩ := h.isSub l (pos := ((s : Int) + offset).toNat) (by
        simp only [wordSize, halfWord] at *
        omega)
      refine ⟨b, fun k => by rw [if_neg hneg, e1]; rfl, ?_⟩
      rw [e2, show ((((s : Int) + offset).toNat : Nat) : Int) = s + offset by omega]
  obtain ⟨b, e1, e2⟩ := hb
  rw [e1]
  cases b with
  | true =>
    rw [if_pos rfl]
    exact ⟨_, rfl, e2.1 rfl⟩
  | false =>
    rw [if_neg (by simp)]
    have hno : ¬ StandsAt items l (s + offset) := by
      intro hh; simpa using e2.2 hh
    obtain ⟨r, f1, f2⟩ := reductionLoop_spec h hc l h1 h2 (max (contextLengths c).1 (contextLengths c).2 - 1) 1 (by omega)
    refine ⟨r, f1, ?_⟩
    rcases f2 with ⟨rfl, g⟩ | ⟨k, k1, k2, rfl, k3, k4⟩
    · exact ⟨hno, fun k hk1 hk2 => g k hk1 (by omega)⟩
    · exact ⟨hno, k, k1, by omega, rfl, k3, k4⟩

/-- Standing cleanly is enough, without any condition on the context lengths. -/
theorem willApply_cleanly [DecidableEq T] (h : SideIs p c reverse s items) (l : List T) {offset : Int}
    (h1 : -(halfWord : Int) ≤ s + offset) (h2 : s + offset + items.length < halfWord)
    (hs : StandsAt items l (s + offset)) : willApply p c l offset reverse = .ok (some .cleanly) := by
  have hpos := ((standsAt_iff _ _ _).1 hs).1
  unfold willApply
  rw [h.adjustedStart h1 (by omega)]
  simp only [Outcome.ok_bind]
  rw [if_neg (by omega), asUsize_of_nonneg hpos]
  obtain ⟨b, e1, e2⟩ := h.isSub l (pos := ((s : Int) + offset).toNat) (by
    simp only [wordSize, halfWord] at *
    omega)
  rw [e1]
  rw [show ((((s : Int) + offset).toNat : Nat) : Int) = s + offset by omega] at e2
  simp [e2.2 hs]

/-! ## The nearby search -/

/-- A bound on positions and offsets that keeps all intermediate sums inside `isize`. -/
abbrev quarterWord : Nat := 2 ^ 62

/-- A bound on offsets that keeps also the steps of the search inside `isize`. -/
abbrev eighthWord : Nat := 2 ^ 61

theorem eighthWord_le {o : Int} (h : -(eighthWord : Int) ≤ o ∧ o < eighthWord) : -(quarterWord : Int) ≤ o ∧ o < quarterWord := by
  simp only [eighthWord, quarterWord] at *; omega

section nearby

variable [DecidableEq T]

theorem nearbyBackward_spec (h : SideIs p c reverse s items) (hc : CtxFits (contextLengths c) items) (pd : ConsumableSeq T)
    {offset i : Int} {bd : Bool} (hs : s + items.length < quarterWord) (ho : -(quarterWord : Int) ≤ offset ∧ offset < quarterWord)
    (hcons : pd.consumed < quarterWord) (hi : 1 ≤ i)
    (hbd : bd = true → (s : Int) + offset - i < pd.consumed) (hnbd : bd = false → i = 1 ∨ (pd.consumed : Int) ≤ s + offset - (i - 1)) :
    ∃ w bd', nearbyBackward p c pd offset reverse i bd = .ok (w, bd') ∧
      ((bd' = true ∧ w = none ∧ (s : Int) + offset - i < pd.consumed) ∨
       (bd' = false ∧ (pd.consumed : Int) ≤ s + offset - i ∧
          Fits items (contextLengths c) pd.sequence (s + offset + -i) w)) := by
  unfold nearbyBackward
  cases bd with
  | true =>
    rw [if_pos rfl]
    exact ⟨none, true, rfl, .inl ⟨rfl, rfl, hbd rfl⟩⟩
  | false =>
    rw [if_neg (by simp)]
    have hn := hnbd rfl
    simp only [quarterWord] at *
    rw [iadd_ok (by simp only [halfWord]; omega) (by simp only [halfWord]; omega)]
    simp only [Outcome.ok_bind]
    rw [h.adjustedStart (by simp only [halfWord]; omega) (by simp only [halfWord]; omega)]
    simp only [Outcome.ok_bind]
    rw [asIsize_of_lt (by simp only [halfWord]; omega)]
    by_cases hlt : (s : Int) + (offset + -i) < pd.consumed
    · rw [if_pos hlt]
      exact ⟨none, true, rfl, .inl ⟨rfl, rfl, by omega⟩⟩
    · rw [if_neg hlt]
      obtain ⟨r, e1, e2⟩ := willApply_spec h hc pd.sequence (offset := offset + -i) (by simp only [halfWord]; omega) (by simp only [halfWord]; omega)
      rw [e1]
      refine ⟨r, false, rfl, .inr ⟨rfl, by omega, ?_⟩⟩
      rwa [show (s : Int) + offset + -i = s + (offset + -i) by omega]

theorem nearbyForward_spec (h : SideIs p c reverse s items) (hc : CtxFits (contextLengths c) items) (pd : ConsumableSeq T)
    {notAfter : Nat} {offset i : Int} {fd : Bool} (hs : s + items.length < quarterWord)
    (ho : -(quarterWord : Int) ≤ offset ∧ offset < quarterWord) (hlim : asIsize notAfter ≤ quarterWord) (hi : 1 ≤ i)
    (hfd : fd = true → asIsize notAfter ≤ (s : Int) + offset + i)
    (hnfd : fd = false → i = 1 ∨ (s : Int) + offset + (i - 1) < asIsize notAfter) :
    ∃ w fd', nearbyForward p c pd notAfter offset reverse i fd = .ok (w, fd') ∧
      ((fd' = true ∧ w = none ∧ asIsize notAfter ≤ (s : Int) + offset + i) ∨
       (fd' = false ∧ (s : Int) + offset + i < asIsize notAfter ∧
          Fits items (contextLengths c) pd.sequence (s + offset + i) w)) := by
  unfold nearbyForward
  cases fd with
  | true =>
    rw [if_pos rfl]
    exact ⟨none, true, rfl, .inl ⟨rfl, rfl, hfd rfl⟩⟩
  | false =>
    rw [if_neg (by simp)]
    have hn := hnfd rfl
    generalize asIsize notAfter = lim at *
    simp only [quarterWord] at *
    rw [iadd_ok (by simp only [halfWord]; omega) (by simp only [halfWord]; omega)]
    simp only [Outcome.ok_bind]
    rw [h.adjustedStart (by simp only [halfWord]; omega) (by simp only [halfWord]; omega)]
    simp only [Outcome.ok_bind]
    by_cases hlt : (s : Int) + (offset + i) < lim
    · rw [if_pos hlt]
      obtain ⟨r, e1, e2⟩ := willApply_spec h hc pd.sequence (offset := offset + i) (by simp only [halfWord]; omega) (by simp only [halfWord]; omega)
      rw [e1]
      refine ⟨r, false, rfl, .inr ⟨rfl, by omega, ?_⟩⟩
      rwa [show (s : Int) + offset + i = s + (offset + i) by omega]
    · rw [if_neg hlt]
      exact ⟨none, true, rfl, .inl ⟨rfl, rfl, by omega⟩⟩

theorem nearbyLoop_spec (h : SideIs p c reverse s items) (hc : CtxFits (contextLengths c) items) (pd : ConsumableSeq T)
    {notAfter : Nat} {offset : Int} (hs : s + items.length < quarterWord)
    (ho : -(eighthWord : Int) ≤ offset ∧ offset < eighthWord) (hcons : pd.consumed < quarterWord)
    (hlim : asIsize notAfter ≤ quarterWord) (fuel : Nat) (i : Int) (bd fd : Bool) (hi : 1 ≤ i)
    (hfuel : ((s : Int) + offset - pd.consumed).toNat + (asIsize notAfter - ((s : Int) + offset)).toNat + 3 ≤ fuel + i)
    (hstep : i = 1 ∨ (pd.consumed : Int) ≤ s + offset - (i - 1) ∨ (s : Int) + offset + (i - 1) < asIsize notAfter)
    (hbd : bd = true → (s : Int) + offset - i < pd.consumed) (hnbd : bd = false → i = 1 ∨ (pd.consumed : Int) ≤ s + offset - (i - 1))
    (hfd : fd = true → asIsize notAfter ≤ (s : Int) + offset + i)
    (hnfd : fd = false → i = 1 ∨ (s : Int) + offset + (i - 1) < asIsize notAfter)
    (hprev : ∀ d : Int, InBounds (s + offset) pd.consumed (asIsize notAfter) d → (d.natAbs : Int) < i →
      Fits items (contextLengths c) pd.sequence (s + offset + d) none) :
    ∃ r, nearbyLoop p c pd notAfter offset reverse fuel i bd fd = .ok r ∧
      Nearest items (contextLengths c) pd.sequence (s + offset) pd.consumed (asIsize notAfter) r := by
  induction fuel generalizing i bd fd with
  | zero => omega
  | succ fuel ih =>
    have ho' := eighthWord_le ho
    have hi' : i + 1 < halfWord ∧ -(halfWord : Int) ≤ -i := by
      simp only [quarterWord, eighthWord, halfWord] at *; omega
    rw [nearbyLoop, iadd_ok (by omega) hi'.1]
    obtain ⟨w, bd', e1, e2⟩ := nearbyBackward_spec h hc pd hs ho' hcons hi hbd hnbd
    simp only [Outcome.ok_bind]
    rw [e1]
    simp only [Outcome.ok_bind]
    cases w with
    | some w =>
      rcases e2 with ⟨-, hw, -⟩ | ⟨-, e3, e4⟩
      · simp at hw
      · simp only
        rw [iadd_ok (by omega) (by omega), Int.zero_add]
        refine ⟨_, rfl, .inl ⟨by omega, by omega⟩, e4, ?_, by omega⟩
        intro d' hb hlt
        exact hprev d' hb (by omega)
    | none =>
      obtain ⟨w, fd', f1, f2⟩ := nearbyForward_spec h hc pd (fd := fd) hs ho' hlim hi hfd hnfd
      simp only
      rw [f1]
      simp only [Outcome.ok_bind]
      have hback : InBounds (s + offset) pd.consumed (asIsize notAfter) (-i) →
          Fits items (contextLengths c) pd.sequence (s + offset + -i) none := by
        intro hb
        rcases e2 with ⟨-, -, e3⟩ | ⟨-, -, e4⟩
        · rcases hb with hb | hb <;> omega
        · exact e4
      cases w with
      | some w =>
        rcases f2 with ⟨-, hw, -⟩ | ⟨-, f3, f4⟩
        · simp at hw
        · refine ⟨_, rfl, .inr ⟨by omega, by omega⟩, f4, ?_, fun _ => hback⟩
          intro d' hb hlt
          exact hprev d' hb (by omega)
      | none =>
        simp only
        have hfwd : InBounds (s + offset) pd.consumed (asIsize notAfter) i →
            Fits items (contextLengths c) pd.sequence (s + offset + i) none := by
          intro hb
          rcases f2 with ⟨-, -, f3⟩ | ⟨-, -, f4⟩
          · rcases hb with hb | hb <;> omega
          · exact f4
        have hprev' : ∀ d : Int, InBounds (s + offset) pd.consumed (asIsize notAfter) d → (d.natAbs : Int) < i + 1 →
            Fits items (contextLengths c) pd.sequence (s + offset + d) none := by
          intro d hb hlt
          by_cases h1 : d = i
          · subst h1; exact hfwd hb
          · by_cases h2 : d = -i
            · subst h2; exact hback hb
            · exact hprev d hb (by omega)
        cases hdone : (fd' && bd') with
        | true =>
          rw [if_pos rfl]
          refine ⟨none, rfl, ?_⟩
          simp at hdone
          obtain ⟨rfl, rfl⟩ := hdone
          intro d hb
          have e3 : (s : Int) + offset - i < pd.consumed := by
            rcases e2 with ⟨-, -, e3⟩ | ⟨h, -⟩
            · exact e3
            · simp at h
          have f3 : asIsize notAfter ≤ (s : Int) + offset + i := by
            rcases f2 with ⟨-, -, f3⟩ | ⟨h, -⟩
            · exact f3
            · simp at h
          exact hprev d hb (by rcases hb with hb | hb <;> omega)
        | false =>
          rw [if_neg (by simp)]
          have k1 : bd' = true → (s : Int) + offset - i < pd.consumed := by
            intro hb
            rcases e2 with ⟨-, -, e3⟩ | ⟨h, -⟩
            · exact e3
            · rw [hb] at h; simp at h
          have k2 : bd' = false → (pd.consumed : Int) ≤ s + offset - i := by
            intro hb
            rcases e2 with ⟨h, -⟩ | ⟨-, e3, -⟩
            · rw [hb] at h; simp at h
            · exact e3
          have k3 : fd' = true → asIsize notAfter ≤ (s : Int) + offset + i := by
            intro hb
            rcases f2 with ⟨-, -, f3⟩ | ⟨h, -⟩
            · exact f3
            · rw [hb] at h; simp at h
          have k4 : fd' = false → (s : Int) + offset + i < asIsize notAfter := by
            intro hb
            rcases f2 with ⟨h, -⟩ | ⟨-, f3, -⟩
            · rw [hb] at h; simp at h
            · exact f3
          apply ih (i + 1) bd' fd' (by omega) (by omega)
          · right
            rw [show i + 1 - 1 = i by omega]
            cases bd' with
            | false => exact .inl (k2 rfl)
            | true =>
              cases fd' with
              | false => exact .inr (k4 rfl)
              | true => simp at hdone
          · intro hb; have := k1 hb; omega
          · intro hb; right; have := k2 hb; omega
          · intro hb; have := k3 hb; omega
          · intro hb; right; have := k4 hb; omega
          · exact hprev'

/-- `will_apply_nearby` when its upper limit can be computed. -/
theorem willApplyNearby_spec (h : SideIs p c reverse s items) (hc : CtxFits (contextLengths c) items) (pd : ConsumableSeq T)
    (next : Option C) {notAfter : Nat} {offset : Int} (hs : s + items.length < quarterWord)
    (ho : -(eighthWord : Int) ≤ offset ∧ offset < eighthWord) (hcons : pd.consumed < quarterWord)
    (hlim : asIsize notAfter ≤ quarterWord) (hl : nearbyLimit p c pd next offset reverse = .ok notAfter) :
    ∃ r, willApplyNearby p c pd next offset reverse = .ok r ∧
      Nearest items (contextLengths c) pd.sequence (s + offset) pd.consumed (asIsize notAfter) r := by
  unfold willApplyNearby
  rw [hl]
  simp only [Outcome.ok_bind]
  apply nearbyLoop_spec h hc pd hs ho hcons hlim
  · omega
  · simp only [nearbyFuel, quarterWord, eighthWord, wordSize] at *; omega
  · left; rfl
  · simp
  · simp
  · simp
  · simp
  · intro d hb hlt
    have : d = 0 := by omega
    subst this
    rcases hb with hb | hb <;> omega

end nearby

end PwDiff
