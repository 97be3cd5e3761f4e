import Verif.Proofs.Writer
import Verif.Proofs.ApplyBytes

/-! # Applying a diff fails only if the writer fails -/

namespace PwDiff

open ChangeBasics TextClump

/-- Not an error. -/
structure Outcome.NoErr {α : Type} (o : Outcome α) : Prop where
  ne : o ≠ .ioErr

/-- On a writer that does not fail the computation does not fail. -/
structure WM.NoErr {α : Type} (m : WM α) : Prop where
  ne : ∀ w : Writer, w.room = none → (m w).1 ≠ .ioErr ∧ (m w).2.room = none

variable {α β T : Type}

theorem Outcome.NoErr.ok (a : α) : (Outcome.ok a).NoErr := ⟨nofun⟩
theorem Outcome.NoErr.pure (a : α) : (Pure.pure a : Outcome α).NoErr := ⟨nofun⟩
theorem Outcome.NoErr.panic : (Outcome.panic : Outcome α).NoErr := ⟨nofun⟩
theorem Outcome.NoErr.diverge : (Outcome.diverge : Outcome α).NoErr := ⟨nofun⟩
theorem Outcome.NoErr.bind {o : Outcome α} {f : α → Outcome β} (h : o.NoErr) (hf : ∀ a, (f a).NoErr) : (o >>= f).NoErr := by
  cases o with
  | ok a => exact hf a
  | ioErr => exact absurd rfl h.ne
  | panic => exact .panic
  | diverge => exact .diverge

theorem WM.NoErr.lift {o : Outcome α} (h : o.NoErr) : (WM.lift o).NoErr := ⟨fun _ hw => ⟨h.ne, hw⟩⟩
theorem WM.NoErr.liftM {o : Outcome α} (h : o.NoErr) : (liftM o : WM α).NoErr := ⟨fun _ hw => ⟨h.ne, hw⟩⟩
theorem WM.NoErr.pure (a : α) : (Pure.pure a : WM α).NoErr := ⟨fun _ hw => ⟨nofun, hw⟩⟩
theorem WM.NoErr.writeAll (bs : List UInt8) : (PwDiff.writeAll bs).NoErr := by
  constructor
  rintro ⟨out, room⟩ rfl
  exact ⟨nofun, rfl⟩
theorem WM.NoErr.bind {m : WM α} {f : α → WM β} (h : m.NoErr) (hf : ∀ a, (f a).NoErr) : (m >>= f).NoErr := by
  constructor
  intro w hw
  have h1 := h.ne w hw
  change (WM.bind m f w).1 ≠ _ ∧ (WM.bind m f w).2.room = none
  unfold WM.bind
  split
  · next a w1 e => rw [e] at h1; exact (hf a).ne w1 h1.2
  · next w1 e => rw [e] at h1; exact absurd rfl h1.1
  · next w1 e => rw [e] at h1; exact ⟨nofun, h1.2⟩
  · next w1 e => rw [e] at h1; exact ⟨nofun, h1.2⟩

theorem uadd_noErr (p : Profile) (a b : Nat) : (uadd p a b).NoErr := by
  unfold uadd; split <;> (try split) <;> exact ⟨nofun⟩
theorem usub_noErr (p : Profile) (a b : Nat) : (usub p a b).NoErr := by
  unfold usub; split <;> (try split) <;> exact ⟨nofun⟩
theorem iadd_noErr (p : Profile) (a b : Int) : (iadd p a b).NoErr := by
  unfold iadd; split <;> (try split) <;> exact ⟨nofun⟩
theorem slice_noErr (l : List T) (a b : Nat) : (slice l a b).NoErr := by
  unfold slice; split <;> exact ⟨nofun⟩
theorem sliceFrom_noErr (l : List T) (a : Nat) : (sliceFrom l a).NoErr := by
  unfold sliceFrom; split <;> exact ⟨nofun⟩
theorem debugAssert_noErr (p : Profile) (b : Bool) : (debugAssert p b).NoErr := by
  unfold debugAssert; split <;> (try split) <;> exact ⟨nofun⟩

/-- Applies one of several facts. -/
syntax "oneof" "[" term,* "]" : tactic
macro_rules
  | `(tactic| oneof []) => `(tactic| fail)
  | `(tactic| oneof [$h]) => `(tactic| with_reducible apply $h)
  | `(tactic| oneof [$h, $hs,*]) => `(tactic| first | with_reducible apply $h | oneof [$hs,*])

/-- Goes through a computation. -/
syntax "noerr" "[" term,* "]" : tactic
macro_rules
  | `(tactic| noerr [$hs,*]) => `(tactic|
  repeat' first
    | with_reducible exact Outcome.NoErr.ok _
    | with_reducible exact Outcome.NoErr.pure _
    | with_reducible exact Outcome.NoErr.panic
    | with_reducible exact Outcome.NoErr.diverge
    | with_reducible exact uadd_noErr _ _ _
    | with_reducible exact usub_noErr _ _ _
    | with_reducible exact iadd_noErr _ _ _
    | with_reducible exact slice_noErr _ _ _
    | with_reducible exact sliceFrom_noErr _ _
    | with_reducible exact debugAssert_noErr _ _
    | with_reducible exact WM.NoErr.pure _
    | with_reducible exact WM.NoErr.writeAll _
    | with_reducible assumption
    | oneof [$hs,*]
    | with_reducible apply Outcome.NoErr.bind
    | with_reducible apply WM.NoErr.bind
    | with_reducible apply WM.NoErr.lift
    | with_reducible apply WM.NoErr.liftM
    | intro _
    | dsimp only
    | split)

theorem beforeLength_noErr (p : Profile) (c : DiffClump T) (rev : Bool) : (beforeLength p c rev).NoErr := by
  show (ChangeBasics.defaultBeforeLength _ _ _).NoErr
  unfold ChangeBasics.defaultBeforeLength
  noerr []

theorem beforeEnd_noErr (p : Profile) (c : DiffClump T) (rev : Bool) : (beforeEnd p c rev).NoErr := uadd_noErr _ _ _

theorem itemsIn_noErr (p : Profile) (s : Snippet T) (r : Option Range) : (s.itemsIn p r).NoErr := by
  unfold Snippet.itemsIn
  noerr []

theorem beforeLines_noErr (p : Profile) (c : DiffClump T) (r : Option Range) (rev : Bool) : (beforeLines p c r rev).NoErr :=
  itemsIn_noErr _ _ _

theorem beforeRange_noErr (p : Profile) (c : DiffClump T) (r : Option (Nat × Nat)) (rev : Bool) :
    (beforeRange p c r rev).NoErr := by
  have := beforeEnd_noErr p c rev
  unfold beforeRange
  noerr [this]

theorem myBeforeRange_noErr (p : Profile) (c : DiffClump T) (r : Option (Nat × Nat)) (rev : Bool) :
    (myBeforeRange p c r rev).NoErr := by
  have := beforeLength_noErr p c rev
  unfold myBeforeRange
  noerr [this]

theorem beforeAdjustedStart_noErr (p : Profile) (c : DiffClump T) (o : Int) (r : Option (Nat × Nat)) (rev : Bool) :
    (beforeAdjustedStart p c o r rev).NoErr := by
  unfold beforeAdjustedStart
  noerr []

theorem beforeAdjustedLength_noErr (p : Profile) (c : DiffClump T) (r : Option (Nat × Nat)) (rev : Bool) :
    (beforeAdjustedLength p c r rev).NoErr := by
  have := beforeLength_noErr p c rev
  unfold beforeAdjustedLength
  noerr [this]

section
variable [DecidableEq T]

theorem beforeIsSubsequenceInAt_noErr (p : Profile) (c : DiffClump T) (l : List T) (n : Nat) (r : Option (Nat × Nat)) (rev : Bool) :
    (beforeIsSubsequenceInAt p c l n r rev).NoErr := by
  have h1 := myBeforeRange_noErr p c r rev
  have h2 := fun r => beforeLines_noErr p c r rev
  unfold beforeIsSubsequenceInAt subsequence
  noerr [h1, h2]

theorem reductionLoop_noErr (p : Profile) (c : DiffClump T) (l : List T) (s : Int) (rev : Bool) (rs : List Nat) :
    (reductionLoop p c l s rev rs).NoErr := by
  have h := fun n r => beforeIsSubsequenceInAt_noErr p c l n r rev
  induction rs with
  | nil => exact .ok _
  | cons r rs ih =>
    unfold reductionLoop
    noerr [h, ih]

theorem willApply_noErr (p : Profile) (c : DiffClump T) (l : List T) (o : Int) (rev : Bool) : (willApply p c l o rev).NoErr := by
  have h := fun n r => beforeIsSubsequenceInAt_noErr p c l n r rev
  have h2 := beforeAdjustedStart_noErr p c o none rev
  have h3 := fun s rs => reductionLoop_noErr p c l s rev rs
  unfold willApply
  noerr [h, h2, h3]

theorem nearbyLoop_noErr (p : Profile) (c : DiffClump T) (pd : ConsumableSeq T) (na : Nat) (o : Int) (rev : Bool) (fuel : Nat)
    (i : Int) (b f : Bool) : (nearbyLoop p c pd na o rev fuel i b f).NoErr := by
  have h := fun o => willApply_noErr p c pd.sequence o rev
  have h2 := fun o => beforeAdjustedStart_noErr p c o none rev
  have h3 : ∀ i b, (nearbyBackward p c pd o rev i b).NoErr := by
    intro i b
    unfold nearbyBackward
    noerr [h, h2]
  have h4 : ∀ i b, (nearbyForward p c pd na o rev i b).NoErr := by
    intro i b
    unfold nearbyForward
    noerr [h, h2]
  induction fuel generalizing i b f with
  | zero => exact .diverge
  | succ fuel ih =>
    unfold nearbyLoop
    noerr [h3, h4, ih]

theorem willApplyNearby_noErr (p : Profile) (c : DiffClump T) (pd : ConsumableSeq T) (next : Option (DiffClump T)) (o : Int)
    (rev : Bool) : (willApplyNearby p c pd next o rev).NoErr := by
  have h2 := fun c o r => beforeAdjustedStart_noErr (T := T) p c o r rev
  have h3 := fun c r => beforeAdjustedLength_noErr (T := T) p c r rev
  have h1 : (nearbyLimit p c pd next o rev).NoErr := by
    unfold nearbyLimit
    noerr [h2, h3]
  have h4 := fun na fuel i b f => nearbyLoop_noErr p c pd na o rev fuel i b f
  unfold willApplyNearby
  noerr [h1, h4]

end

section
variable [Item T]

theorem writeLines_noErr (ls : List T) : (writeLines ls).NoErr := by
  induction ls with
  | nil => exact .pure _
  | cons l ls ih => unfold writeLines; noerr [ih]

theorem beforeWriteInto_noErr (p : Profile) (c : DiffClump T) (r : Option (Nat × Nat)) (rev : Bool) :
    (beforeWriteInto p c r rev).NoErr := by
  have h1 := fun r => beforeRange_noErr p c r rev
  have h2 := fun r => beforeLines_noErr p c r rev
  have h3 := writeLines_noErr (T := T)
  unfold beforeWriteInto
  noerr [h1, h2, h3]

variable [DecidableEq T] [LawfulItem T]

theorem writeItems_noErr (ls : List T) : (Item.writeItems ls).NoErr := by
  rw [LawfulItem.writeItems_eq]
  exact .writeAll _

theorem writeInto_noErr (p : Profile) (ls : List T) (r : Range) : (writeInto p ls r).NoErr := by
  have := writeItems_noErr (T := T)
  unfold writeInto
  noerr [this]

theorem writeIntoUpto_noErr (p : Profile) (pd : ConsumableSeq T) (n : Nat) : (pd.writeIntoUpto p n).NoErr := by
  have := fun r => writeInto_noErr p pd.sequence r
  unfold ConsumableSeq.writeIntoUpto
  noerr [this]

theorem clumpApplyInto_noErr (p : Profile) (c : DiffClump T) (pd : ConsumableSeq T) (o : Int) (r : Option (Nat × Nat)) (rev : Bool) :
    (clumpApplyInto p c pd o r rev).NoErr := by
  have h1 := beforeAdjustedStart_noErr p c o r rev
  have h2 := fun n => writeIntoUpto_noErr p pd n
  have h3 := beforeWriteInto_noErr p c r (!rev)
  have h4 := beforeAdjustedLength_noErr p c r rev
  unfold clumpApplyInto afterWriteInto ConsumableSeq.advanceConsumedBy
  noerr [h1, h2, h3, h4]

theorem alreadyAppliedInto_noErr (p : Profile) (c : DiffClump T) (pd : ConsumableSeq T) (o : Int) (r : Option (Nat × Nat)) (rev : Bool) :
    (alreadyAppliedInto p c pd o r rev).NoErr := by
  have h1 := beforeAdjustedStart_noErr p c o r (!rev)
  have h2 := fun n => writeIntoUpto_noErr p pd n
  have h4 := beforeAdjustedLength_noErr p c r (!rev)
  unfold alreadyAppliedInto afterAdjustedStart afterAdjustedLength
  noerr [h1, h2, h4]

theorem applyStep_noErr (p : Profile) (l : List T) (rev : Bool) (c : DiffClump T) (next : Option (DiffClump T)) (pd : ConsumableSeq T)
    (o : Int) (st : Statistics) : (applyStep p l rev c next pd o st).NoErr := by
  have h1 := fun o rev => willApply_noErr p c l o rev
  have h2 := fun o rev => willApplyNearby_noErr p c pd next o rev
  have h3 := fun o r => clumpApplyInto_noErr p c pd o r rev
  have h4 := fun o r => alreadyAppliedInto_noErr p c pd o r rev
  have h5 := fun r rev => beforeWriteInto_noErr p c r rev
  unfold applyStep writeFailureDataInto afterWriteInto clumpIsAlreadyApplied clumpIsAlreadyAppliedNearby
  noerr [h1, h2, h3, h4, h5]

/-- On a writer that does not fail `apply_into` returns no error. -/
theorem applyInto_noErr (p : Profile) (cs : List (DiffClump T)) (l : List T) (rev : Bool) : (applyInto p cs l rev).NoErr := by
  have h : ∀ (cs : List (DiffClump T)) pd o st, (applyLoop p l rev cs pd o st).NoErr := by
    intro cs
    induction cs with
    | nil => intro pd o st; exact .pure _
    | cons c cs ih =>
      intro pd o st
      have := applyStep_noErr p l rev c cs.head? pd o st
      unfold applyLoop
      noerr [ih, this]
  have h2 := writeInto_noErr (T := T) p
  unfold applyInto ConsumableSeq.writeRemainder
  noerr [h, h2]

end

theorem byteApplyInto_noErr (p : Profile) (cs : List (DiffClump UInt8)) (l : List UInt8) (rev : Bool) :
    (byteApplyInto p cs l rev).NoErr := by
  have h0 : ∀ a b n, (hasSubsequenceAt (T := UInt8) p a b n).NoErr := by
    intro a b n
    unfold hasSubsequenceAt
    noerr []
  have h1 := writeIntoUpto_noErr (T := UInt8) p
  have h3 := writeItems_noErr (T := UInt8)
  have h : ∀ (cs : List (DiffClump UInt8)) pd, (byteApplyLoop p l rev cs pd).NoErr := by
    intro cs
    induction cs with
    | nil => intro pd; exact .pure _
    | cons c cs ih =>
      intro pd
      unfold byteApplyLoop byteApplyStep byteWillApply byteIsAlreadyApplied byteClumpApplyInto byteAlreadyAppliedInto
        Snippet.writeInto ConsumableSeq.advanceConsumedBy
      noerr [h0, h1, h3, ih]
  have h2 := writeInto_noErr (T := UInt8) p
  unfold byteApplyInto ConsumableSeq.writeRemainder
  noerr [h, h2]

end PwDiff
