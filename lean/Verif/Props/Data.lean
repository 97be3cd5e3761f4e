import Verif.Model.Data
import Verif.Props.Sequence
import Verif.Proofs.Apply

/-! # C124: `data.rs` and `sequence.rs` -/

namespace PwDiff

variable {T : Type} [Item T]

/-- A history of calls (see C07) on the older type, by a caller that does not look at what the calls return. -/
def runCallsOnData (p : Profile) : List Call → ConsumableData T → WM Unit
  | [], c => do
    let _ ← c.writeRemainder
    pure ()
  | .upto n :: calls, c => do
    let r ← c.writeIntoUpto n
    runCallsOnData p calls r.2
  | .advance n :: calls, c => do
    let c ← c.advanceConsumedBy p n
    runCallsOnData p calls c

variable [DecidableEq T] [LawfulItem T]

theorem Data.writeInto_eq (l : List T) (a b : Nat) (h : a ≤ b ∨ l.length < a) :
    Data.writeInto l ⟨a, b⟩ = if a ≤ b ∧ b ≤ l.length then WM.emit (bytesOf (cut l a b)) (.ok true) else WM.emit [] (.ok false) := by
  unfold Data.writeInto
  by_cases h1 : a ≤ b ∧ b ≤ l.length
  · rw [if_pos h1, if_neg (by show ¬ (b > l.length ∨ a > l.length); omega), slice_ok h1.1 h1.2]
    simp only [WM.liftM_eq, WM.lift_ok_bind, LawfulItem.writeItems_eq, WM.writeAll_eq_emit, bytesOf]
    exact WM.emit_bind_pure _ _ _
  · rw [if_neg h1, if_pos (by show b > l.length ∨ a > l.length; omega), WM.pure_eq_emit]

/-- `write_into_upto` writes up to the position, if it lies in the sequence, and says whether what was to be written is now the last
that has been consumed. -/
theorem C124_upto (l : List T) (k n : Nat) :
    (⟨l, k⟩ : ConsumableData T).writeIntoUpto n =
      if n ≤ l.length then WM.emit (bytesOf (cut l k n)) (.ok (decide (k ≤ n), ⟨l, max k n⟩)) else WM.emit [] (.ok (false, ⟨l, k⟩)) := by
  unfold ConsumableData.writeIntoUpto
  by_cases h : n ≤ l.length
  · rw [if_pos h, if_pos h]
    by_cases hk : k < n
    · rw [if_pos hk, Data.writeInto_eq _ _ _ (.inl (by show k ≤ n; omega)), if_pos ⟨by show k ≤ n; omega, h⟩, show max k n = n by omega,
        show decide (k ≤ n) = true by simp; omega]
      exact WM.emit_bind_pure _ _ _
    · rw [if_neg hk, cut_eq_nil _ (by omega), show max k n = k by omega, bytesOf_nil, WM.pure_eq_emit]
      congr 3
      exact decide_eq_decide.2 (by show k = n ↔ _; omega)
  · rw [if_neg h, if_neg h, WM.pure_eq_emit]

/-- `write_remainder` writes the remainder if there can be one, and says so. -/
theorem C124_remainder (l : List T) (k : Nat) :
    (⟨l, k⟩ : ConsumableData T).writeRemainder =
      if k ≤ l.length then WM.emit (bytesOf (l.drop k)) (.ok (true, ⟨l, l.length⟩)) else WM.emit [] (.ok (false, ⟨l, l.length⟩)) := by
  unfold ConsumableData.writeRemainder ConsumableData.rangeFrom
  rw [Data.writeInto_eq _ _ _ (by show k ≤ l.length ∨ l.length < k; omega)]
  by_cases h : k ≤ l.length
  · rw [if_pos ⟨h, Nat.le_refl _⟩, if_pos h, show cut l k l.length = l.drop k by simp [cut, List.take_of_length_le]]
    exact WM.emit_bind_pure _ _ _
  · rw [if_neg (by show ¬ (k ≤ l.length ∧ _); omega), if_neg h]
    exact WM.emit_bind_pure _ _ _

theorem WM.emit_bind_apply {α β : Type} (bs : List UInt8) (a : α) (f : α → WM β) (w : Writer) :
    (WM.emit bs (.ok a) >>= f) w = match writeAll bs w with
      | (.ok _, w') => f a w'
      | (_, w') => (.ioErr, w') := by
  have : WM.emit bs (.ok a) >>= f = writeAll bs >>= fun _ => f a := by simp [WM.emit]
  rw [this]
  show WM.bind _ _ w = _
  unfold WM.bind writeAll
  cases w.room with
  | none => rfl
  | some r =>
    by_cases h : bs.length ≤ r
    · simp only [if_pos h]
    · simp only [if_neg h]

/-- Where the newer code does not panic the older one does the same: it writes the same to every writer and ends alike. -/
theorem C124_same (p : Profile) (calls : List Call) (l : List T) (k : Nat) (w : Writer)
    (h : (runCalls p calls (⟨l, k⟩ : ConsumableSeq T) w).1 ≠ .panic) :
    runCallsOnData p calls ⟨l, k⟩ w = runCalls p calls (⟨l, k⟩ : ConsumableSeq T) w := by
  induction calls generalizing k w with
  | nil =>
    unfold runCallsOnData
    unfold runCalls at h ⊢
    rw [C124_remainder]
    by_cases hk : k ≤ l.length
    · rw [writeRemainder_eq p l k hk] at h ⊢
      rw [if_pos hk, show cut l k l.length = l.drop k by simp [cut, List.take_of_length_le], WM.emit_bind_pure, WM.emit_bind_pure]
    · rw [writeRemainder_panic p l k (by omega), WM.emit_bind_panic] at h
      exact absurd (show ((WM.emit [] .panic : WM Unit) w).1 = .panic by rw [← WM.lift_eq_emit]; rfl) h
  | cons c calls ih =>
    cases c with
    | upto n =>
      unfold runCallsOnData
      unfold runCalls at h ⊢
      rw [C124_upto]
      by_cases hn : n ≤ l.length
      · rw [writeIntoUpto_eq p l k n hn] at h ⊢
        rw [if_pos hn]
        rw [WM.emit_bind_apply] at h ⊢
        rw [WM.emit_bind_apply]
        generalize writeAll (bytesOf (cut l k n)) w = r at *
        obtain ⟨r1, r2⟩ := r
        cases r1 with
        | ok _ => exact ih _ _ h
        | ioErr | panic | diverge => rfl
      · rw [if_neg hn]
        have e : (WM.emit [] (.ok (false, (⟨l, k⟩ : ConsumableData T))) >>= fun r => runCallsOnData p calls r.2) = runCallsOnData p calls ⟨l, k⟩ := by
          rw [← WM.lift_eq_emit]; rfl
        rw [e]
        unfold ConsumableSeq.writeIntoUpto at h ⊢
        cases p with
        | debug =>
          rw [show debugAssert .debug (decide (n ≤ l.length)) = .panic by simp [debugAssert, hn]] at h
          exact absurd rfl h
        | release =>
          simp only [debugAssert, WM.liftM_eq, WM.lift_ok_bind] at h ⊢
          by_cases hk : k < n
          · rw [if_pos hk, writeInto_eq, if_neg (by show ¬ (k ≤ n ∧ n ≤ l.length); omega), ← WM.lift_eq_emit] at h
            exact absurd rfl h
          · rw [if_neg hk] at h ⊢
            exact ih _ _ h
    | advance n =>
      unfold runCallsOnData
      unfold runCalls at h ⊢
      unfold ConsumableData.advanceConsumedBy
      unfold ConsumableSeq.advanceConsumedBy at h ⊢
      simp only at h ⊢
      cases hu : uadd p k n with
      | ok m =>
        rw [hu] at h
        exact ih _ _ h
      | ioErr | panic | diverge => rfl

example := C124_same .debug [.upto 1, .advance 1, .upto 0] [['a', '\n'], ['b', '\n'], ['c', '\n']] 0 ⟨[], some 3⟩ (by decide +kernel)

/-- `write_into_all_from` writes all from the given item on; past the end it writes nothing, where the newer code panics. -/
theorem C124_allFrom (p : Profile) (l : List T) (start : Nat) :
    Data.writeIntoAllFrom l start = WM.emit (bytesOf (l.drop start)) (.ok ()) ∧
    (start ≤ l.length → Data.writeIntoAllFrom l start = writeIntoAllFrom p l start) := by
  have e : Data.writeIntoAllFrom l start = WM.emit (bytesOf (l.drop start)) (.ok ()) := by
    unfold Data.writeIntoAllFrom
    by_cases h : start < l.length
    · rw [if_pos h]
      simp only [sliceFrom, if_pos (Nat.le_of_lt h), WM.liftM_eq, WM.lift_ok_bind, LawfulItem.writeItems_eq, WM.writeAll_eq_emit, bytesOf]
    · rw [if_neg h, List.drop_of_length_le (by omega), bytesOf_nil, WM.pure_eq_emit]
  refine ⟨e, fun h => ?_⟩
  rw [e, writeIntoAllFrom_eq, if_pos h]

/-- From the third line on, and past the end. -/
example : (Data.writeIntoAllFrom ([1, 2, 3] : List UInt8) 2).run = (.ok (), [3]) ∧ (Data.writeIntoAllFrom ([1, 2, 3] : List UInt8) 4).run = (.ok (), []) ∧
    (writeIntoAllFrom .release ([1, 2, 3] : List UInt8) 4).run = (.panic, []) := by
  decide +kernel

/-- A new value starts before the first item: a history on it is one on the newer type's. -/
theorem C124_new (p : Profile) (calls : List Call) (l : List T) (w : Writer) (h : (runCalls p calls (ConsumableSeq.new l) w).1 ≠ .panic) :
    runCallsOnData p calls (ConsumableData.new l) w = runCalls p calls (ConsumableSeq.new l) w :=
  C124_same p calls l 0 w h

/-- The sum of the steps in a history. -/
def advanced : List Call → Nat
  | [] => 0
  | .upto _ :: calls => advanced calls
  | .advance n :: calls => n + advanced calls

/-- The older code never panics, in no history at all, unless the count of what is consumed overflows in a debug build. -/
theorem C124_noPanic (p : Profile) (calls : List Call) (l : List T) (k : Nat) (w : Writer)
    (hp : p = .release ∨ max k l.length + advanced calls < wordSize) :
    (runCallsOnData p calls (⟨l, k⟩ : ConsumableData T) w).1 ≠ .panic := by
  induction calls generalizing k w with
  | nil =>
    unfold runCallsOnData
    rw [C124_remainder]
    split
    all_goals
      rw [WM.emit_bind_apply]
      generalize writeAll _ w = r
      obtain ⟨r1, r2⟩ := r
      cases r1 <;> exact fun h => by cases h
  | cons c calls ih =>
    cases c with
    | upto n =>
      unfold runCallsOnData
      rw [C124_upto]
      split
      all_goals
        rw [WM.emit_bind_apply]
        generalize writeAll _ w = r
        obtain ⟨r1, r2⟩ := r
        cases r1 with
        | ok _ =>
          refine ih _ _ (hp.imp id fun h => ?_)
          simp only [advanced] at h
          omega
        | ioErr | panic | diverge => exact fun h => by cases h
    | advance n =>
      unfold runCallsOnData ConsumableData.advanceConsumedBy
      cases p with
      | release =>
        simp only [uadd]
        split <;> exact ih _ _ (.inl rfl)
      | debug =>
        have h := hp.resolve_left (by simp)
        simp only [advanced] at h
        simp only [uadd, if_pos (show k + n < wordSize by omega)]
        exact ih _ _ (.inr (by omega))

/-- A history in which the newer code panics; the older one writes what there is. -/
example : (runCalls .release [.upto 1, .advance 3] (ConsumableSeq.new ([1, 2, 3] : List UInt8))).run = (.panic, [1]) ∧
    (runCallsOnData .release [.upto 1, .advance 3] (ConsumableData.new ([1, 2, 3] : List UInt8))).run = (.ok (), [1]) := by
  decide +kernel
/-- One in which both do the same, on a writer with room for three bytes. -/
example : (runCalls .debug [.upto 1, .advance 1, .upto 0] (ConsumableSeq.new [['a', '\n'], ['b', '\n'], ['c', '\n']]) ⟨[], some 3⟩) =
    (.ioErr, ⟨[97, 10, 99], some 0⟩) ∧
    (runCallsOnData .debug [.upto 1, .advance 1, .upto 0] (ConsumableData.new [['a', '\n'], ['b', '\n'], ['c', '\n']]) ⟨[], some 3⟩) =
    (.ioErr, ⟨[97, 10, 99], some 0⟩) := by
  decide +kernel

end PwDiff
