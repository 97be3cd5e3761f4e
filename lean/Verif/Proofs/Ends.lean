import Verif.Proofs.NoErr
import Verif.Proofs.Size

/-! # Applying a patch ends, whatever the patch is

The nearby search counts its steps in `isize`; in a release build all its sums wrap around.  After 2^64 steps every position has
been visited in each direction, so both directions have reached their bounds (or the program has panicked). -/

namespace PwDiff

open ChangeBasics TextClump

/-- The computation ends. -/
structure Outcome.Ends {α : Type} (o : Outcome α) : Prop where
  ne : o ≠ .diverge

/-- On a writer that does not fail the computation ends. -/
structure WM.Ends {α : Type} (m : WM α) : Prop where
  ne : ∀ w : Writer, w.room = none → (m w).1 ≠ .diverge ∧ (m w).2.room = none

variable {α β T : Type}

theorem Outcome.Ends.ok (a : α) : (Outcome.ok a).Ends := ⟨nofun⟩
theorem Outcome.Ends.pure (a : α) : (Pure.pure a : Outcome α).Ends := ⟨nofun⟩
theorem Outcome.Ends.panic : (Outcome.panic : Outcome α).Ends := ⟨nofun⟩
theorem Outcome.Ends.ioErr : (Outcome.ioErr : Outcome α).Ends := ⟨nofun⟩
theorem Outcome.Ends.bind {o : Outcome α} {f : α → Outcome β} (h : o.Ends) (hf : ∀ a, (f a).Ends) : (o >>= f).Ends := by
  cases o with
  | ok a => exact hf a
  | ioErr => exact .ioErr
  | panic => exact .panic
  | diverge => exact absurd rfl h.ne

theorem WM.Ends.lift {o : Outcome α} (h : o.Ends) : (WM.lift o).Ends := ⟨fun _ hw => ⟨h.ne, hw⟩⟩
theorem WM.Ends.liftM {o : Outcome α} (h : o.Ends) : (liftM o : WM α).Ends := ⟨fun _ hw => ⟨h.ne, hw⟩⟩
theorem WM.Ends.pure (a : α) : (Pure.pure a : WM α).Ends := ⟨fun _ hw => ⟨nofun, hw⟩⟩
theorem WM.Ends.writeAll (bs : List UInt8) : (PwDiff.writeAll bs).Ends := by
  constructor
  rintro ⟨out, room⟩ rfl
  exact ⟨nofun, rfl⟩
theorem WM.Ends.bind {m : WM α} {f : α → WM β} (h : m.Ends) (hf : ∀ a, (f a).Ends) : (m >>= f).Ends := by
  constructor
  intro w hw
  have h1 := h.ne w hw
  change (WM.bind m f w).1 ≠ _ ∧ (WM.bind m f w).2.room = none
  unfold WM.bind
  split
  · next a w1 e => rw [e] at h1; exact (hf a).ne w1 h1.2
  · next w1 e => rw [e] at h1; exact ⟨nofun, h1.2⟩
  · next w1 e => rw [e] at h1; exact ⟨nofun, h1.2⟩
  · next w1 e => rw [e] at h1; exact absurd rfl h1.1

theorem uadd_ends (p : Profile) (a b : Nat) : (uadd p a b).Ends := by
  unfold uadd; split <;> (try split) <;> exact ⟨nofun⟩
theorem usub_ends (p : Profile) (a b : Nat) : (usub p a b).Ends := by
  unfold usub; split <;> (try split) <;> exact ⟨nofun⟩
theorem iadd_ends (p : Profile) (a b : Int) : (iadd p a b).Ends := by
  unfold iadd; split <;> (try split) <;> exact ⟨nofun⟩
theorem slice_ends (l : List T) (a b : Nat) : (slice l a b).Ends := by
  unfold slice; split <;> exact ⟨nofun⟩
theorem sliceFrom_ends (l : List T) (a : Nat) : (sliceFrom l a).Ends := by
  unfold sliceFrom; split <;> exact ⟨nofun⟩
theorem debugAssert_ends (p : Profile) (b : Bool) : (debugAssert p b).Ends := by
  unfold debugAssert; split <;> (try split) <;> exact ⟨nofun⟩

/-- Goes through a computation. -/
syntax "ends" "[" term,* "]" : tactic
macro_rules
  | `(tactic| ends [$hs,*]) => `(tactic|
  repeat' first
    | with_reducible exact Outcome.Ends.ok _
    | with_reducible exact Outcome.Ends.pure _
    | with_reducible exact Outcome.Ends.panic
    | with_reducible exact uadd_ends _ _ _
    | with_reducible exact usub_ends _ _ _
    | with_reducible exact iadd_ends _ _ _
    | with_reducible exact slice_ends _ _ _
    | with_reducible exact sliceFrom_ends _ _
    | with_reducible exact debugAssert_ends _ _
    | with_reducible exact WM.Ends.pure _
    | with_reducible exact WM.Ends.writeAll _
    | with_reducible assumption
    | oneof [$hs,*]
    | with_reducible apply Outcome.Ends.bind
    | with_reducible apply WM.Ends.bind
    | with_reducible apply WM.Ends.lift
    | with_reducible apply WM.Ends.liftM
    | intro _
    | dsimp only
    | split)


section clump

variable {C : Type} [TextClump C T] {p : Profile}

/-- The accessors of a clump end. -/
structure PlainClump (p : Profile) (c : C) : Prop where
  fin : ∀ rev, (beforeEnd p c rev).Ends
  length : ∀ rev, (beforeLength p c rev).Ends
  lines : ∀ r rev, (beforeLines p c r rev).Ends

theorem beforeRange_ends {c : C} (hp : PlainClump p c) (r : Option (Nat × Nat)) (rev : Bool) :
    (beforeRange p c r rev).Ends := by
  have := hp.fin rev
  unfold beforeRange
  ends [this]

theorem myBeforeRange_ends {c : C} (hp : PlainClump p c) (r : Option (Nat × Nat)) (rev : Bool) :
    (myBeforeRange p c r rev).Ends := by
  have := hp.length rev
  unfold myBeforeRange
  ends [this]

theorem beforeAdjustedStart_ends (c : C) (o : Int) (r : Option (Nat × Nat)) (rev : Bool) :
    (beforeAdjustedStart p c o r rev).Ends := by
  unfold beforeAdjustedStart
  ends []

theorem beforeAdjustedLength_ends {c : C} (hp : PlainClump p c) (r : Option (Nat × Nat)) (rev : Bool) :
    (beforeAdjustedLength p c r rev).Ends := by
  have := hp.length rev
  unfold beforeAdjustedLength
  ends [this]

section
variable [DecidableEq T]

theorem beforeIsSubsequenceInAt_ends {c : C} (hp : PlainClump p c) (l : List T) (n : Nat) (r : Option (Nat × Nat)) (rev : Bool) :
    (beforeIsSubsequenceInAt p c l n r rev).Ends := by
  have h1 := myBeforeRange_ends hp r rev
  have h2 := fun r => hp.lines r rev
  unfold beforeIsSubsequenceInAt subsequence
  ends [h1, h2]

theorem reductionLoop_ends {c : C} (hp : PlainClump p c) (l : List T) (s : Int) (rev : Bool) (rs : List Nat) :
    (reductionLoop p c l s rev rs).Ends := by
  have h := fun n r => beforeIsSubsequenceInAt_ends hp l n r rev
  induction rs with
  | nil => exact .ok _
  | cons r rs ih =>
    unfold reductionLoop
    ends [h, ih]

theorem willApply_ends {c : C} (hp : PlainClump p c) (l : List T) (o : Int) (rev : Bool) : (willApply p c l o rev).Ends := by
  have h := fun n r => beforeIsSubsequenceInAt_ends hp l n r rev
  have h2 := beforeAdjustedStart_ends (p := p) c o none rev
  have h3 := fun s rs => reductionLoop_ends hp l s rev rs
  unfold willApply
  ends [h, h2, h3]

end


section
variable [DecidableEq T]

omit [TextClump C T] [DecidableEq T] in
theorem wrapI_shift (x q : Int) : wrapI (x + wordSize * q) = wrapI x := by
  unfold wrapI
  rw [show x + wordSize * q + halfWord = x + halfWord + wordSize * q by omega, Int.add_mul_emod_self_left]

omit [TextClump C T] [DecidableEq T] in
/-- Numbers that differ by whole turns are the same. -/
theorem wrapI_turns (x : Int) : ∃ q : Int, wrapI x = x + wordSize * q := by
  refine ⟨-((x + halfWord) / wordSize), ?_⟩
  have := Int.emod_def (x + halfWord) wordSize
  unfold wrapI
  rw [this, Int.mul_neg]; omega

omit [TextClump C T] [DecidableEq T] in
theorem wrapI_add_left (x y : Int) : wrapI (wrapI x + y) = wrapI (x + y) := by
  obtain ⟨q, e⟩ := wrapI_turns x
  rw [e, show x + wordSize * q + y = x + y + wordSize * q by omega, wrapI_shift]

omit [TextClump C T] [DecidableEq T] in
theorem wrapI_add_right (x y : Int) : wrapI (x + wrapI y) = wrapI (x + y) := by
  rw [Int.add_comm, wrapI_add_left, Int.add_comm]

omit [TextClump C T] [DecidableEq T] in
theorem wrapI_sub_right (x y : Int) : wrapI (x + -wrapI y) = wrapI (x - y) := by
  obtain ⟨q, e⟩ := wrapI_turns y
  rw [e, show x + -(y + wordSize * q) = x - y + wordSize * (-q) by rw [Int.mul_neg]; omega, wrapI_shift]

omit [TextClump C T] [DecidableEq T] in
theorem iadd_some {a b r : Int} (h : iadd p a b = .ok r) : r = wrapI (a + b) := by
  unfold iadd at h
  split at h
  · next hr =>
    obtain rfl := Outcome.ok_inj h
    unfold wrapI
    simp only [wordSize, halfWord] at *; omega
  · cases p with
    | debug => cases h
    | release => exact (Outcome.ok_inj h).symm

theorem nearbyBackward_ends {c : C} (hp : PlainClump p c) (pd : ConsumableSeq T) (o : Int) (rev : Bool) (i : Int) (b : Bool) :
    (nearbyBackward p c pd o rev i b).Ends := by
  have h := fun o => willApply_ends hp pd.sequence o rev
  have h2 := fun o => beforeAdjustedStart_ends (p := p) c o none rev
  unfold nearbyBackward
  ends [h, h2]

theorem nearbyForward_ends {c : C} (hp : PlainClump p c) (pd : ConsumableSeq T) (na : Nat) (o : Int) (rev : Bool) (i : Int) (b : Bool) :
    (nearbyForward p c pd na o rev i b).Ends := by
  have h := fun o => willApply_ends hp pd.sequence o rev
  have h2 := fun o => beforeAdjustedStart_ends (p := p) c o none rev
  unfold nearbyForward
  ends [h, h2]

/-- Once done, always done; and done where the position is the smallest number. -/
theorem nearbyBackward_done {c : C} {pd : ConsumableSeq T} {o : Int} {rev : Bool} {i : Int} {b : Bool} {r : Option WillApply × Bool}
    (h : nearbyBackward p c pd o rev i b = .ok r) (hc : -(halfWord : Int) < asIsize pd.consumed)
    (hb : b = true ∨ wrapI (asIsize (beforeStart c rev) + wrapI (o + -i)) = -(halfWord : Int)) : r.2 = true := by
  unfold nearbyBackward at h
  cases b with
  | true => rw [if_pos rfl] at h; rw [← Outcome.ok_inj h]
  | false =>
    rw [if_neg (by simp)] at h
    obtain ⟨a, ha, h⟩ := Outcome.bind_ok h
    obtain ⟨s, hs, h⟩ := Outcome.bind_ok h
    obtain rfl := iadd_some ha
    obtain rfl := iadd_some (show iadd p _ _ = .ok s from hs)
    rw [hb.resolve_left (by simp), if_pos hc] at h
    rw [← Outcome.ok_inj h]

/-- Once done, always done; and done where the position is the largest number. -/
theorem nearbyForward_done {c : C} {pd : ConsumableSeq T} {na : Nat} {o : Int} {rev : Bool} {i : Int} {b : Bool}
    {r : Option WillApply × Bool} (h : nearbyForward p c pd na o rev i b = .ok r) (hn : asIsize na < halfWord)
    (hb : b = true ∨ wrapI (asIsize (beforeStart c rev) + wrapI (o + i)) = (halfWord : Int) - 1) : r.2 = true := by
  unfold nearbyForward at h
  cases b with
  | true => rw [if_pos rfl] at h; rw [← Outcome.ok_inj h]
  | false =>
    rw [if_neg (by simp)] at h
    obtain ⟨a, ha, h⟩ := Outcome.bind_ok h
    obtain ⟨s, hs, h⟩ := Outcome.bind_ok h
    obtain rfl := iadd_some ha
    obtain rfl := iadd_some (show iadd p _ _ = .ok s from hs)
    rw [hb.resolve_left (by simp), if_neg (by omega)] at h
    rw [← Outcome.ok_inj h]

theorem nearbyLoop_ends {c : C} (hp : PlainClump p c) (pd : ConsumableSeq T) {na : Nat} {o : Int} (rev : Bool)
    (hc : -(halfWord : Int) < asIsize pd.consumed) (hn : asIsize na < halfWord) {k0 k1 : Nat}
    (h0 : k0 ≤ wordSize) (h1 : k1 ≤ wordSize)
    (e0 : wrapI (asIsize (beforeStart c rev) + o - k0) = -(halfWord : Int))
    (e1 : wrapI (asIsize (beforeStart c rev) + o + k1) = (halfWord : Int) - 1)
    (fuel k : Nat) (b f : Bool) (hf : wordSize + 2 ≤ fuel + k) (hb : k0 < k → b = true) (hfd : k1 < k → f = true)
    (hbf : ¬ (b = true ∧ f = true)) : (nearbyLoop p c pd na o rev fuel (wrapI k) b f).Ends := by
  induction fuel generalizing k b f with
  | zero => exact absurd ⟨hb (by omega), hfd (by omega)⟩ hbf
  | succ fuel ih =>
    unfold nearbyLoop
    constructor
    intro h
    cases hi : iadd p (wrapI k) 1 with
    | diverge => exact (iadd_ends p _ _).ne hi
    | ioErr | panic => rw [hi] at h; cases h
    | ok next =>
      have hnext : next = wrapI ((k + 1 : Nat) : Int) := by
        rw [iadd_some hi, wrapI_add_left]; rfl
      rw [hi] at h
      simp only [Outcome.ok_bind] at h
      cases hbk : nearbyBackward p c pd o rev (wrapI k) b with
      | diverge => exact (nearbyBackward_ends hp pd o rev _ b).ne hbk
      | ioErr | panic => rw [hbk] at h; cases h
      | ok r =>
        have d0 : k0 ≤ k → r.2 = true := by
          intro hk
          refine nearbyBackward_done hbk hc ?_
          by_cases hk' : k0 < k
          · exact .inl (hb hk')
          · obtain rfl : k0 = k := by omega
            refine .inr ?_
            rw [wrapI_add_right, ← Int.add_assoc, wrapI_sub_right, e0]
        obtain ⟨w, b'⟩ := r
        rw [hbk] at h
        simp only [Outcome.ok_bind] at h
        cases w with
        | some w =>
          simp only at h
          cases hx : iadd p 0 (-wrapI k) with
          | diverge => exact (iadd_ends p _ _).ne hx
          | ioErr | panic | ok => rw [hx] at h; cases h
        | none =>
          simp only at h
          cases hfw : nearbyForward p c pd na o rev (wrapI k) f with
          | diverge => exact (nearbyForward_ends hp pd na o rev _ f).ne hfw
          | ioErr | panic => rw [hfw] at h; cases h
          | ok r =>
            have d1 : k1 ≤ k → r.2 = true := by
              intro hk
              refine nearbyForward_done hfw hn ?_
              by_cases hk' : k1 < k
              · exact .inl (hfd hk')
              · obtain rfl : k1 = k := by omega
                refine .inr ?_
                rw [wrapI_add_right, ← Int.add_assoc, wrapI_add_right, e1]
            obtain ⟨w, f'⟩ := r
            rw [hfw] at h
            simp only [Outcome.ok_bind] at h
            cases w with
            | some w => cases h
            | none =>
              simp only at h
              cases hd : (f' && b') with
              | true => rw [hd, if_pos rfl] at h; cases h
              | false =>
                rw [hd, if_neg (by simp), hnext] at h
                refine (ih (k + 1) b' f' (by omega) (fun hk => d0 (by omega)) (fun hk => d1 (by omega)) ?_).ne h
                rintro ⟨rfl, rfl⟩
                simp at hd

theorem asIsize_bounds {a : Nat} (h : a < wordSize) : -(halfWord : Int) ≤ asIsize a ∧ asIsize a < halfWord := by
  unfold asIsize
  split <;> (simp only [wordSize, halfWord] at *; omega)

theorem willApplyNearby_ends {c : C} (hp : PlainClump p c) {pd : ConsumableSeq T} (hc : pd.consumed < halfWord)
    (hl : pd.sequence.length < wordSize) (next : Option C) (o : Int) (rev : Bool) : (willApplyNearby p c pd next o rev).Ends := by
  have hlim : (nearbyLimit p c pd next o rev).Ends := by
    have h2 := fun (c : C) o r => beforeAdjustedStart_ends (p := p) c o r rev
    have h3 := fun r => beforeAdjustedLength_ends hp r rev
    unfold nearbyLimit
    ends [h2, h3]
  unfold willApplyNearby
  constructor
  intro h
  cases hx : nearbyLimit p c pd next o rev with
  | diverge => exact hlim.ne hx
  | ioErr | panic => rw [hx] at h; cases h
  | ok na =>
    have hna : na < wordSize := by
      have key : ∀ a b, a < wordSize → usub p a b = .ok na → na < wordSize := by
        intro a b ha h
        unfold usub at h
        split at h
        · rw [← Outcome.ok_inj h]; omega
        · cases p with
          | debug => cases h
          | release => rw [← Outcome.ok_inj h]; exact Nat.mod_lt _ (by decide)
      unfold nearbyLimit at hx
      cases next with
      | none =>
        obtain ⟨l, -, hx⟩ := Outcome.bind_ok hx
        exact key _ _ hl hx
      | some n =>
        obtain ⟨s, hs, hx⟩ := Outcome.bind_ok hx
        obtain ⟨l, -, hx⟩ := Outcome.bind_ok hx
        refine key _ _ ?_ hx
        have : -(halfWord : Int) ≤ s ∧ s < halfWord := by
          unfold beforeAdjustedStart at hs
          obtain ⟨_, -, hs⟩ := Outcome.bind_ok hs
          rw [iadd_some hs]
          unfold wrapI
          simp only [wordSize, halfWord]; omega
        unfold asUsize
        split <;> (simp only [wordSize, halfWord] at *; omega)
    rw [hx] at h
    simp only [Outcome.ok_bind] at h
    generalize hS : asIsize (beforeStart c rev) = S
    refine (nearbyLoop_ends hp pd (na := na) (o := o) rev ?_ (asIsize_bounds hna).2
      (k0 := ((S + o + halfWord - 1) % wordSize + 1).toNat) (k1 := ((wordSize - 2 - (S + o) - halfWord) % wordSize + 1).toNat)
      ?_ ?_ ?_ ?_ nearbyFuel 1 false false (by simp only [nearbyFuel]; omega) ?_ ?_ (by simp)).ne h
    · rw [asIsize_of_lt hc]; simp only [halfWord]; omega
    · simp only [wordSize, halfWord]; omega
    · simp only [wordSize, halfWord]; omega
    · rw [hS]; unfold wrapI; simp only [wordSize, halfWord]; omega
    · rw [hS]; unfold wrapI; simp only [wordSize, halfWord]; omega
    · intro h; simp only [wordSize, halfWord] at h; omega
    · intro h; simp only [wordSize, halfWord] at h; omega

end

section
variable [Item T]

theorem writeLines_ends (ls : List T) : (writeLines ls).Ends := by
  induction ls with
  | nil => exact .pure _
  | cons l ls ih => unfold writeLines; ends [ih]

theorem beforeWriteInto_ends {c : C} (hp : PlainClump p c) (r : Option (Nat × Nat)) (rev : Bool) :
    (beforeWriteInto p c r rev).Ends := by
  have h1 := fun r => beforeRange_ends hp r rev
  have h2 := fun r => hp.lines r rev
  have h3 := writeLines_ends (T := T)
  unfold beforeWriteInto
  ends [h1, h2, h3]

variable [DecidableEq T] [LawfulItem T]

theorem writeItems_ends (ls : List T) : (Item.writeItems ls).Ends := by
  rw [LawfulItem.writeItems_eq]
  exact .writeAll _

theorem writeInto_ends (p : Profile) (ls : List T) (r : Range) : (writeInto p ls r).Ends := by
  have := writeItems_ends (T := T)
  unfold writeInto
  ends [this]

theorem writeIntoUpto_ends (p : Profile) (pd : ConsumableSeq T) (n : Nat) : (pd.writeIntoUpto p n).Ends := by
  have := fun r => writeInto_ends p pd.sequence r
  unfold ConsumableSeq.writeIntoUpto
  ends [this]

theorem clumpApplyInto_ends {c : C} (hp : PlainClump p c) (pd : ConsumableSeq T) (o : Int) (r : Option (Nat × Nat)) (rev : Bool) :
    (clumpApplyInto p c pd o r rev).Ends := by
  have h1 := beforeAdjustedStart_ends (p := p) c o r rev
  have h2 := fun n => writeIntoUpto_ends p pd n
  have h3 := beforeWriteInto_ends hp r (!rev)
  have h4 := beforeAdjustedLength_ends hp r rev
  unfold clumpApplyInto afterWriteInto ConsumableSeq.advanceConsumedBy
  ends [h1, h2, h3, h4]

theorem alreadyAppliedInto_ends {c : C} (hp : PlainClump p c) (pd : ConsumableSeq T) (o : Int) (r : Option (Nat × Nat)) (rev : Bool) :
    (alreadyAppliedInto p c pd o r rev).Ends := by
  have h1 := beforeAdjustedStart_ends (p := p) c o r (!rev)
  have h2 := fun n => writeIntoUpto_ends p pd n
  have h4 := beforeAdjustedLength_ends hp r (!rev)
  unfold alreadyAppliedInto afterAdjustedStart afterAdjustedLength
  ends [h1, h2, h4]

end

section
variable [Item T] [DecidableEq T] [LawfulItem T]

omit [DecidableEq T] [LawfulItem T] in
theorem writeFailureDataInto_ends {c : C} (hp : PlainClump p c) (rev : Bool) : (writeFailureDataInto p c rev).Ends := by
  have h5 := fun r rev => beforeWriteInto_ends hp r rev
  unfold writeFailureDataInto afterWriteInto
  ends [h5]

theorem applyStep_ends (l : List T) (rev : Bool) {c : C} (hp : PlainClump p c) (next : Option C) {pd : ConsumableSeq T}
    (hc : pd.consumed < halfWord) (hl : pd.sequence.length < wordSize) (o : Int) (st : Statistics) :
    (applyStep p l rev c next pd o st).Ends := by
  have h1 := fun o rev => willApply_ends hp l o rev
  have h2 := fun o rev => willApplyNearby_ends hp hc hl next o rev
  have h3 := fun o r => clumpApplyInto_ends hp pd o r rev
  have h4 := fun o r => alreadyAppliedInto_ends hp pd o r rev
  have h5 := writeFailureDataInto_ends hp rev
  unfold applyStep clumpIsAlreadyApplied clumpIsAlreadyAppliedNearby
  ends [h1, h2, h3, h4, h5]

theorem writeRemainder_ends (pd : ConsumableSeq T) : (pd.writeRemainder p).Ends := by
  have h2 := writeInto_ends (T := T) p
  unfold ConsumableSeq.writeRemainder
  ends [h2]

/-- Applying a patch ends. -/
theorem applyLoop_ends (old new : C → List T) (l : List T) (rev : Bool) (cs : List C) (hp : ∀ c ∈ cs, PlainClump p c)
    (h : ∀ c ∈ cs, SideHas p c rev (old c)) (h' : ∀ c ∈ cs, SideHas p c (!rev) (new c))
    (hx : ∀ c ∈ cs, (contextLengths c).2 + (old c).length < wordSize) (pd : ConsumableSeq T) (o : Int) (st : Statistics)
    (hs : max pd.consumed pd.sequence.length + total (fun c => (old c).length) cs < halfWord) :
    (applyLoop p l rev cs pd o st).Ends := by
  induction cs generalizing pd o st with
  | nil => exact .pure _
  | cons c cs ih =>
    simp only [total] at hs
    have hw : (wordSize : Nat) = 2 * halfWord := by decide
    have h1 := applyStep_ends l rev (hp c (by simp)) cs.head? (pd := pd) (by omega) (by omega) o st
    have h2 := spends_applyStep (h c (by simp)) (h' c (by simp)) (hx c (by simp)) l cs.head? pd o st (by omega) 0
    unfold applyLoop
    constructor
    rintro ⟨out, room⟩ rfl
    have h1 := h1.ne ⟨out, none⟩ rfl
    obtain ⟨bs, -, -, h2⟩ := h2.at_ out
    change (WM.bind _ _ _).1 ≠ _ ∧ (WM.bind _ _ _).2.room = none
    unfold WM.bind
    split
    · next r w1 e =>
      rw [e] at h1 h2
      obtain ⟨pd', o', st'⟩ := r
      obtain ⟨-, -, e3, e4⟩ := h2 _ rfl
      simp only at e3 e4
      refine (ih (fun c hc => hp c (by simp [hc])) (fun c hc => h c (by simp [hc])) (fun c hc => h' c (by simp [hc]))
        (fun d hd => hx d (by simp [hd])) pd' o' st' ?_).ne w1 h1.2
      rw [e3]; omega
    · next w1 e => rw [e] at h1; exact ⟨nofun, h1.2⟩
    · next w1 e => rw [e] at h1; exact ⟨nofun, h1.2⟩
    · next w1 e => rw [e] at h1; exact absurd rfl h1.1

theorem applyInto_ends' (old new : C → List T) (l : List T) (rev : Bool) (cs : List C) (hp : ∀ c ∈ cs, PlainClump p c)
    (h : ∀ c ∈ cs, SideHas p c rev (old c)) (h' : ∀ c ∈ cs, SideHas p c (!rev) (new c))
    (hx : ∀ c ∈ cs, (contextLengths c).2 + (old c).length < wordSize)
    (hs : l.length + total (fun c => (old c).length) cs < halfWord) : (applyInto p cs l rev).Ends := by
  have h1 := applyLoop_ends old new l rev cs hp h h' hx (.new l) 0 {} (by
    simp only [ConsumableSeq.new]; omega)
  have h2 := fun pd => writeRemainder_ends (T := T) (p := p) pd
  unfold applyInto
  ends [h1, h2]

omit [Item T] [LawfulItem T] in
/-- Looking whether a patch is applied already ends. -/
theorem isAlreadyApplied_ends (l : List T) (rev : Bool) (cs : List C) (hp : ∀ c ∈ cs, PlainClump p c) (hl : l.length < wordSize) :
    (isAlreadyApplied p cs l rev).Ends := by
  have key : ∀ (cs : List C) (o : Int), (∀ c ∈ cs, PlainClump p c) → (isAlreadyAppliedLoop p l rev (.new l) cs o).Ends := by
    intro cs
    induction cs with
    | nil => intro o _; exact .ok _
    | cons c cs ih =>
      intro o hp
      have ih := fun o => ih o fun c hc => hp c (by simp [hc])
      have h1 := fun o rev => willApply_ends (hp c (by simp)) l o rev
      have h2 := fun next o rev => willApplyNearby_ends (hp c (by simp)) (pd := .new l) (show (0 : Nat) < halfWord by decide) hl next o rev
      unfold isAlreadyAppliedLoop clumpIsAlreadyApplied clumpIsAlreadyAppliedNearby
      ends [h1, h2, ih]
  exact key cs 0 hp

end

end clump

end PwDiff
