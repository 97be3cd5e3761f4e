import Verif.Proofs.Programs
import Verif.Proofs.Blocks
import Verif.Model.Unified

/-! # What a release build does, compared with a debug build -/

namespace PwDiff

variable {α β T : Type}

/-- The first computation panics, or both do the same. -/
inductive Below : Outcome α → Outcome α → Prop where
  | panic (y : Outcome α) : Below .panic y
  | same (x : Outcome α) : Below x x

theorem Below.bind {x y : Outcome α} {f g : α → Outcome β} (h : Below x y) (hf : ∀ a, Below (f a) (g a)) :
    Below (x >>= f) (y >>= g) := by
  cases h with
  | panic => exact .panic _
  | same =>
    cases x with
    | ok a => exact hf a
    | ioErr => exact .same _
    | panic => exact .same _
    | diverge => exact .same _

theorem below_iff {x y : Outcome α} : Below x y ↔ x = .panic ∨ x = y := by
  constructor
  · rintro (_ | _)
    · exact .inl rfl
    · exact .inr rfl
  · rintro (rfl | rfl)
    · exact .panic _
    · exact .same _

theorem uadd_below (a b : Nat) : Below (uadd .debug a b) (uadd .release a b) := by
  unfold uadd
  split
  · exact .same _
  · exact .panic _

theorem usub_below (a b : Nat) : Below (usub .debug a b) (usub .release a b) := by
  unfold usub
  split
  · exact .same _
  · exact .panic _

theorem iadd_below (a b : Int) : Below (iadd .debug a b) (iadd .release a b) := by
  unfold iadd
  split
  · exact .same _
  · exact .panic _

theorem u8incr_below (a : Nat) : Below (u8incr .debug a) (u8incr .release a) := by
  unfold u8incr
  split
  · exact .same _
  · exact .panic _

theorem debugAssert_below (c : Bool) : Below (debugAssert .debug c) (debugAssert .release c) := by
  cases c
  · exact .panic _
  · exact .same _

/-! ## Writers -/

/-- The same for computations that write. -/
structure WBelow (m n : WM α) : Prop where
  at_ : ∀ w, (m w).1 = .panic ∨ m w = n w

theorem WBelow.refl (m : WM α) : WBelow m m := ⟨fun _ => .inr rfl⟩

theorem WBelow.bind {m n : WM α} {f g : α → WM β} (h : WBelow m n) (hf : ∀ a, WBelow (f a) (g a)) :
    WBelow (m >>= f) (n >>= g) := by
  constructor
  intro w
  have e1 : (m >>= f) w = WM.bind m f w := rfl
  have e2 : (n >>= g) w = WM.bind n g w := rfl
  rw [e1, e2]
  unfold WM.bind
  rcases h.at_ w with h | h
  · left
    revert h
    cases m w with
    | mk o w' => rintro rfl; rfl
  · rw [← h]
    rcases m w with ⟨o, w'⟩
    cases o with
    | ok a => exact (hf a).at_ w'
    | ioErr => exact .inr rfl
    | panic => exact .inl rfl
    | diverge => exact .inr rfl

theorem Below.lift {x y : Outcome α} (h : Below x y) : WBelow (WM.lift x) (WM.lift y) := by
  constructor
  intro w
  cases h with
  | panic => exact .inl rfl
  | same => exact .inr rfl

theorem Below.liftM {x y : Outcome α} (h : Below x y) : WBelow (liftM x : WM α) (liftM y : WM α) := h.lift

theorem seqWriteInto_below [Item T] (seq : List T) (r : Range) :
    WBelow (PwDiff.writeInto .debug seq r) (PwDiff.writeInto .release seq r) := by
  unfold PwDiff.writeInto
  exact (debugAssert_below _).liftM.bind fun _ => .refl _

theorem writeIntoUpto_below [Item T] (c : ConsumableSeq T) (upto : Nat) :
    WBelow (c.writeIntoUpto .debug upto) (c.writeIntoUpto .release upto) := by
  unfold ConsumableSeq.writeIntoUpto
  refine (debugAssert_below _).liftM.bind fun _ => ?_
  split
  · exact (seqWriteInto_below _ _).bind fun _ => .refl _
  · exact .refl _

theorem writeRemainder_below [Item T] (c : ConsumableSeq T) : WBelow (c.writeRemainder .debug) (c.writeRemainder .release) := by
  unfold ConsumableSeq.writeRemainder
  exact (seqWriteInto_below _ _).bind fun _ => .refl _

theorem advanceConsumedBy_below (c : ConsumableSeq T) (n : Nat) :
    Below (c.advanceConsumedBy .debug n) (c.advanceConsumedBy .release n) := by
  unfold ConsumableSeq.advanceConsumedBy
  exact (uadd_below _ _).bind fun _ => .same _

theorem hasSubsequenceAt_below [DecidableEq T] (seq sub : List T) (pos : Nat) :
    Below (hasSubsequenceAt .debug seq sub pos) (hasSubsequenceAt .release seq sub pos) := by
  unfold hasSubsequenceAt
  split
  · exact (usub_below _ _).bind fun _ => .same _
  · exact .same _

theorem itemsIn_below (s : Snippet T) (r : Option Range) : Below (s.itemsIn .debug r) (s.itemsIn .release r) := by
  unfold Snippet.itemsIn
  cases r with
  | none => exact .same _
  | some r =>
    dsimp only
    unfold uadd
    split
    · rw [Outcome.ok_bind]
      unfold debugAssert
      dsimp only
      split
      · exact .same _
      · exact .panic _
    · exact .panic _

/-! ## Clumps -/

open ChangeBasics TextClump

/-- A kind of clump whose own accessors do in a release build what they do in a debug build, unless that panics. -/
class ClumpBelow (C : Type) [TextClump C T] : Prop where
  beforeEnd : ∀ (c : C) (r : Bool), Below (ChangeBasics.beforeEnd .debug c r) (ChangeBasics.beforeEnd .release c r)
  beforeLength : ∀ (c : C) (r : Bool), Below (ChangeBasics.beforeLength .debug c r) (ChangeBasics.beforeLength .release c r)
  beforeLines : ∀ (c : C) (range : Option Range) (r : Bool),
    Below (TextClump.beforeLines .debug c range r) (TextClump.beforeLines .release c range r)

instance : ClumpBelow (T := T) (DiffClump T) where
  beforeEnd _ _ := uadd_below _ _
  beforeLength _ _ := (uadd_below _ _).bind fun _ => usub_below _ _
  beforeLines _ _ _ := itemsIn_below _ _

instance : ClumpBelow (T := Str) UnifiedDiffClump where
  beforeEnd _ _ := uadd_below _ _
  beforeLength _ _ := .same _
  beforeLines _ _ _ := .same _

section clump

variable {C : Type} [TextClump C T] [ClumpBelow (T := T) C]

theorem beforeRange_below (c : C) (reductions : Option (Nat × Nat)) (reverse : Bool) :
    Below (beforeRange .debug c reductions reverse) (beforeRange .release c reductions reverse) := by
  unfold beforeRange
  cases reductions with
  | none => exact (ClumpBelow.beforeEnd (T := T) _ _).bind fun _ => .same _
  | some r =>
    exact (uadd_below _ _).bind fun _ => (ClumpBelow.beforeEnd (T := T) _ _).bind fun _ => (usub_below _ _).bind fun _ => .same _

theorem myBeforeRange_below (c : C) (reductions : Option (Nat × Nat)) (reverse : Bool) :
    Below (myBeforeRange .debug c reductions reverse) (myBeforeRange .release c reductions reverse) := by
  unfold myBeforeRange
  refine (ClumpBelow.beforeLength (T := T) _ _).bind fun _ => ?_
  cases reductions with
  | none => exact .same _
  | some r => exact (usub_below _ _).bind fun _ => .same _

omit [ClumpBelow (T := T) C] in
theorem beforeAdjustedStart_below (c : C) (offset : Int) (reductions : Option (Nat × Nat)) (reverse : Bool) :
    Below (beforeAdjustedStart .debug c offset reductions reverse) (beforeAdjustedStart .release c offset reductions reverse) := by
  unfold beforeAdjustedStart
  cases reductions with
  | none => exact iadd_below _ _
  | some r => exact (iadd_below _ _).bind fun _ => iadd_below _ _

theorem beforeAdjustedLength_below (c : C) (reductions : Option (Nat × Nat)) (reverse : Bool) :
    Below (beforeAdjustedLength .debug c reductions reverse) (beforeAdjustedLength .release c reductions reverse) := by
  unfold beforeAdjustedLength
  cases reductions with
  | none => exact ClumpBelow.beforeLength (T := T) _ _
  | some r => exact (ClumpBelow.beforeLength (T := T) _ _).bind fun _ => (usub_below _ _).bind fun _ => usub_below _ _

theorem beforeIsSubsequenceInAt_below [DecidableEq T] (c : C) (patchable : List T) (pos : Nat)
    (reductions : Option (Nat × Nat)) (reverse : Bool) :
    Below (beforeIsSubsequenceInAt .debug c patchable pos reductions reverse)
      (beforeIsSubsequenceInAt .release c patchable pos reductions reverse) := by
  unfold beforeIsSubsequenceInAt
  refine (myBeforeRange_below _ _ _).bind fun _ => (uadd_below _ _).bind fun _ => ?_
  split
  · exact .same _
  · exact (ClumpBelow.beforeLines (T := T) _ _ _).bind fun _ => .same _

theorem beforeWriteInto_below [Item T] (c : C) (reductions : Option (Nat × Nat)) (reverse : Bool) :
    WBelow (beforeWriteInto .debug c reductions reverse) (beforeWriteInto .release c reductions reverse) := by
  unfold beforeWriteInto
  cases reductions with
  | none => exact (ClumpBelow.beforeLines (T := T) _ _ _).liftM.bind fun _ => .refl _
  | some r =>
    exact (beforeRange_below _ _ _).liftM.bind fun _ => (ClumpBelow.beforeLines (T := T) _ _ _).liftM.bind fun _ => .refl _

theorem reductionLoop_below [DecidableEq T] (c : C) (patchable : List T) (start : Int) (reverse : Bool) (rs : List Nat) :
    Below (reductionLoop .debug c patchable start reverse rs) (reductionLoop .release c patchable start reverse rs) := by
  induction rs with
  | nil => exact .same _
  | cons r rs ih =>
    unfold reductionLoop
    refine (iadd_below _ _).bind fun a => ?_
    dsimp only
    by_cases ha : a < 0
    · simp only [ha, if_true]
      exact (Below.same _).bind fun hit => by
        split
        · exact .same _
        · exact ih
    · simp only [ha, if_false]
      exact (beforeIsSubsequenceInAt_below _ _ _ _ _).bind fun hit => by
        split
        · exact .same _
        · exact ih

theorem willApply_below [DecidableEq T] (c : C) (patchable : List T) (offset : Int) (reverse : Bool) :
    Below (willApply .debug c patchable offset reverse) (willApply .release c patchable offset reverse) := by
  unfold willApply
  refine (beforeAdjustedStart_below _ _ _ _).bind fun a => ?_
  dsimp only
  by_cases ha : a < 0
  · simp only [ha, if_true]
    exact (Below.same _).bind fun hit => by
      split
      · exact .same _
      · exact reductionLoop_below _ _ _ _ _
  · simp only [ha, if_false]
    exact (beforeIsSubsequenceInAt_below _ _ _ _ _).bind fun hit => by
      split
      · exact .same _
      · exact reductionLoop_below _ _ _ _ _

theorem clumpApplyInto_below [Item T] (c : C) (pd : ConsumableSeq T) (offset : Int) (reductions : Option (Nat × Nat))
    (reverse : Bool) :
    WBelow (clumpApplyInto .debug c pd offset reductions reverse) (clumpApplyInto .release c pd offset reductions reverse) := by
  unfold clumpApplyInto
  exact (beforeAdjustedStart_below _ _ _ _).liftM.bind fun _ => (writeIntoUpto_below _ _).bind fun _ =>
    (beforeWriteInto_below _ _ _).bind fun _ => (beforeAdjustedLength_below _ _ _).liftM.bind fun _ =>
    (advanceConsumedBy_below _ _).liftM

theorem nearbyBackward_below [DecidableEq T] (c : C) (pd : ConsumableSeq T) (offset : Int) (reverse : Bool) (i : Int)
    (d : Bool) : Below (nearbyBackward .debug c pd offset reverse i d) (nearbyBackward .release c pd offset reverse i d) := by
  unfold nearbyBackward
  split
  · exact .same _
  · refine (iadd_below _ _).bind fun _ => (beforeAdjustedStart_below _ _ _ _).bind fun _ => ?_
    split
    · exact .same _
    · exact (willApply_below _ _ _ _).bind fun _ => .same _

theorem nearbyForward_below [DecidableEq T] (c : C) (pd : ConsumableSeq T) (notAfter : Nat) (offset : Int) (reverse : Bool)
    (i : Int) (d : Bool) :
    Below (nearbyForward .debug c pd notAfter offset reverse i d) (nearbyForward .release c pd notAfter offset reverse i d) := by
  unfold nearbyForward
  split
  · exact .same _
  · refine (iadd_below _ _).bind fun _ => (beforeAdjustedStart_below _ _ _ _).bind fun _ => ?_
    split
    · exact (willApply_below _ _ _ _).bind fun _ => .same _
    · exact .same _

theorem nearbyLoop_below [DecidableEq T] (c : C) (pd : ConsumableSeq T) (notAfter : Nat) (offset : Int) (reverse : Bool)
    (fuel : Nat) (i : Int) (b f : Bool) :
    Below (nearbyLoop .debug c pd notAfter offset reverse fuel i b f)
      (nearbyLoop .release c pd notAfter offset reverse fuel i b f) := by
  induction fuel generalizing i b f with
  | zero => exact .same _
  | succ fuel ih =>
    unfold nearbyLoop
    refine (iadd_below _ _).bind fun _ => (nearbyBackward_below _ _ _ _ _ _).bind fun (w, b) => ?_
    cases w with
    | some w => exact (iadd_below _ _).bind fun _ => .same _
    | none =>
      refine (nearbyForward_below _ _ _ _ _ _ _).bind fun (w, f) => ?_
      cases w with
      | some w => exact .same _
      | none =>
        dsimp only
        split
        · exact .same _
        · exact ih _ _ _

theorem nearbyLimit_below (c : C) (pd : ConsumableSeq T) (next : Option C) (offset : Int) (reverse : Bool) :
    Below (nearbyLimit .debug c pd next offset reverse) (nearbyLimit .release c pd next offset reverse) := by
  unfold nearbyLimit
  cases next with
  | none => exact (beforeAdjustedLength_below _ _ _).bind fun _ => usub_below _ _
  | some n =>
    exact (beforeAdjustedStart_below _ _ _ _).bind fun _ => (beforeAdjustedLength_below _ _ _).bind fun _ => usub_below _ _

theorem willApplyNearby_below [DecidableEq T] (c : C) (pd : ConsumableSeq T) (next : Option C) (offset : Int)
    (reverse : Bool) :
    Below (willApplyNearby .debug c pd next offset reverse) (willApplyNearby .release c pd next offset reverse) := by
  unfold willApplyNearby
  exact (nearbyLimit_below _ _ _ _ _).bind fun _ => nearbyLoop_below _ _ _ _ _ _ _ _ _

theorem alreadyAppliedInto_below [Item T] (c : C) (pd : ConsumableSeq T) (offset : Int) (reductions : Option (Nat × Nat))
    (reverse : Bool) :
    WBelow (alreadyAppliedInto .debug c pd offset reductions reverse)
      (alreadyAppliedInto .release c pd offset reductions reverse) := by
  unfold alreadyAppliedInto
  exact (beforeAdjustedStart_below _ _ _ _).liftM.bind fun _ => (beforeAdjustedLength_below _ _ _).liftM.bind fun _ =>
    (uadd_below _ _).liftM.bind fun _ => writeIntoUpto_below _ _

theorem writeFailureDataInto_below [Item T] (c : C) (reverse : Bool) :
    WBelow (writeFailureDataInto .debug c reverse) (writeFailureDataInto .release c reverse) := by
  unfold writeFailureDataInto
  exact (WBelow.refl _).bind fun _ => (beforeWriteInto_below _ _ _).bind fun _ => (WBelow.refl _).bind fun _ =>
    (beforeWriteInto_below _ _ _).bind fun _ => .refl _

theorem applyStep_below [DecidableEq T] [Item T] (patchable : List T) (reverse : Bool) (clump : C) (next : Option C)
    (pd : ConsumableSeq T) (offset : Int) (stats : Statistics) :
    WBelow (applyStep .debug patchable reverse clump next pd offset stats)
      (applyStep .release patchable reverse clump next pd offset stats) := by
  unfold applyStep
  refine (willApply_below _ _ _ _).liftM.bind fun w => ?_
  rcases w with _ | _ | r
  · dsimp only
    refine (willApplyNearby_below _ _ _ _ _).liftM.bind fun w => ?_
    rcases w with _ | ⟨adj, _ | r⟩
    · dsimp only
      refine (willApply_below _ _ _ _).liftM.bind fun w => ?_
      rcases w with _ | _ | r
      · dsimp only
        refine (willApplyNearby_below _ _ _ _ _).liftM.bind fun w => ?_
        rcases w with _ | ⟨adj, _ | r⟩
        · exact (writeFailureDataInto_below _ _).bind fun _ => .refl _
        · exact (iadd_below _ _).liftM.bind fun _ => (alreadyAppliedInto_below _ _ _ _ _).bind fun _ => .refl _
        · exact (iadd_below _ _).liftM.bind fun _ => (alreadyAppliedInto_below _ _ _ _ _).bind fun _ => .refl _
      · exact (alreadyAppliedInto_below _ _ _ _ _).bind fun _ => .refl _
      · exact (alreadyAppliedInto_below _ _ _ _ _).bind fun _ => .refl _
    · exact (iadd_below _ _).liftM.bind fun _ => (clumpApplyInto_below _ _ _ _ _).bind fun _ => .refl _
    · exact (iadd_below _ _).liftM.bind fun _ => (clumpApplyInto_below _ _ _ _ _).bind fun _ => .refl _
  · exact (clumpApplyInto_below _ _ _ _ _).bind fun _ => .refl _
  · exact (clumpApplyInto_below _ _ _ _ _).bind fun _ => .refl _

theorem applyLoop_below [DecidableEq T] [Item T] (patchable : List T) (reverse : Bool) (cs : List C)
    (pd : ConsumableSeq T) (offset : Int) (stats : Statistics) :
    WBelow (applyLoop .debug patchable reverse cs pd offset stats) (applyLoop .release patchable reverse cs pd offset stats) := by
  induction cs generalizing pd offset stats with
  | nil => exact .refl _
  | cons c cs ih =>
    unfold applyLoop
    exact (applyStep_below _ _ _ _ _ _ _).bind fun (_, _, _) => ih _ _ _

theorem applyInto_below [DecidableEq T] [Item T] (cs : List C) (patchable : List T) (reverse : Bool) :
    WBelow (applyInto .debug cs patchable reverse) (applyInto .release cs patchable reverse) := by
  unfold applyInto
  exact (applyLoop_below _ _ _ _ _ _).bind fun (_, _) => (writeRemainder_below _).bind fun _ => .refl _

theorem isAlreadyAppliedLoop_below [DecidableEq T] (patchable : List T) (reverse : Bool) (pd : ConsumableSeq T)
    (cs : List C) (offset : Int) :
    Below (isAlreadyAppliedLoop .debug patchable reverse pd cs offset)
      (isAlreadyAppliedLoop .release patchable reverse pd cs offset) := by
  induction cs generalizing offset with
  | nil => exact .same _
  | cons c cs ih =>
    unfold isAlreadyAppliedLoop
    refine (willApply_below _ _ _ _).bind fun w => ?_
    cases w with
    | some w => exact ih _
    | none =>
      refine (willApplyNearby_below _ _ _ _ _).bind fun w => ?_
      rcases w with _ | ⟨adj, w⟩
      · exact .same _
      · exact (iadd_below _ _).bind fun _ => ih _

theorem isAlreadyApplied_below [DecidableEq T] (cs : List C) (patchable : List T) (reverse : Bool) :
    Below (isAlreadyApplied .debug cs patchable reverse) (isAlreadyApplied .release cs patchable reverse) :=
  isAlreadyAppliedLoop_below _ _ _ _ _

end clump

/-! ## Byte patches: nothing but the end of an applied clump can overflow -/

theorem byteApplyStep_below (patchable : List UInt8) (reverse : Bool) (c : DiffClump UInt8) (pd : ConsumableSeq UInt8) :
    WBelow (byteApplyStep .debug patchable reverse c pd) (byteApplyStep .release patchable reverse c pd) := by
  unfold byteApplyStep
  refine (hasSubsequenceAt_below _ _ _).liftM.bind fun b => ?_
  split
  · unfold byteClumpApplyInto
    refine (writeIntoUpto_below _ _).bind fun _ => WBelow.bind (WBelow.refl _) fun _ =>
      (advanceConsumedBy_below _ _).liftM
  · refine (hasSubsequenceAt_below _ _ _).liftM.bind fun b => ?_
    split
    · unfold byteAlreadyAppliedInto
      exact (uadd_below _ _).liftM.bind fun _ => writeIntoUpto_below _ _
    · exact .refl _

theorem byteApplyLoop_below (patchable : List UInt8) (reverse : Bool) (cs : List (DiffClump UInt8)) (pd : ConsumableSeq UInt8) :
    WBelow (byteApplyLoop .debug patchable reverse cs pd) (byteApplyLoop .release patchable reverse cs pd) := by
  induction cs generalizing pd with
  | nil => exact .refl _
  | cons c cs ih =>
    unfold byteApplyLoop
    exact (byteApplyStep_below _ _ _ _).bind fun _ => ih _

theorem byteApplyInto_below (cs : List (DiffClump UInt8)) (patchable : List UInt8) (reverse : Bool) :
    WBelow (byteApplyInto .debug cs patchable reverse) (byteApplyInto .release cs patchable reverse) := by
  unfold byteApplyInto
  exact (byteApplyLoop_below _ _ _ _).bind fun _ => (writeRemainder_below _).bind fun _ => .refl _

theorem byteAlreadyApplied_below (patchable : List UInt8) (reverse : Bool) (cs : List (DiffClump UInt8)) :
    Below (byteAlreadyApplied .debug patchable reverse cs) (byteAlreadyApplied .release patchable reverse cs) := by
  induction cs with
  | nil => exact .same _
  | cons c cs ih =>
    unfold byteAlreadyApplied
    refine (hasSubsequenceAt_below _ _ _).bind fun b => ?_
    split
    · exact ih
    · exact .same _

/-! ## Reading unified diffs -/

theorem hunkLoop_below (startIndex : Nat) (sal : StartsAndLengths) (lines : List Str) (st : HunkState) :
    Below (hunkLoop .debug startIndex sal lines st) (hunkLoop .release startIndex sal lines st) := by
  induction lines generalizing st with
  | nil =>
    unfold hunkLoop
    split
    · exact .same _
    · exact .same _
  | cons line lines ih =>
    unfold hunkLoop
    split
    · dsimp only
      split
      · exact ih _
      · exact ih _
      · split
        · exact (u8incr_below _).bind fun _ => ih _
        · exact (u8incr_below _).bind fun _ => ih _
      · exact .same _
    · exact .same _

theorem getFromAt_below (nd : Digits) (lines : List Str) (startIndex : Nat) :
    Below (getFromAt .debug nd lines startIndex) (getFromAt .release nd lines startIndex) := by
  unfold getFromAt
  refine (Below.same _).bind fun iter => ?_
  cases iter with
  | nil => exact .same _
  | cons line iter =>
    dsimp only
    split
    · exact .same _
    · exact .same _
    · refine (hunkLoop_below _ _ _ _).bind fun r => ?_
      exact .same _

/-! ## Making diffs -/

theorem changesOf_profile [DecidableEq T] [Item T] [LawfulItem T] (p q : Profile) (before after : List T) :
    changesOf p before after = changesOf q before after := by
  obtain ⟨cs, h, -, d, hd, e⟩ := changesOf_spec p before after
  obtain ⟨cs', h', -, d', hd', e'⟩ := changesOf_spec q before after
  obtain rfl := hd.unique hd'
  rw [h, h', e, e']

theorem diffClumps_profile [DecidableEq T] [Item T] [LawfulItem T] (p q : Profile) (before after : List T) (context : Nat) :
    diffClumps p before after context = diffClumps q before after context := by
  unfold diffClumps
  rw [changesOf_profile p q]

theorem diffNew_profile (p q : Profile) (before after : Path) (context : Nat) :
    Diff.new p before after context = Diff.new q before after context := by
  have h1 : TextChangeDiff.new p before after context = TextChangeDiff.new q before after context := by
    unfold TextChangeDiff.new
    simp only [diffClumps_profile p q]
  have h2 : ByteChangeDiff.new p before after context = ByteChangeDiff.new q before after context := by
    unfold ByteChangeDiff.new
    simp only [diffClumps_profile p q]
  unfold Diff.new
  rw [h1, h2]

/-! ## Programs -/

open Sys

/-- The process will not be killed. -/
structure NoKill (w : World) : Prop where
  none : ∀ n, Fault.kill n ∉ w.faults

/-- Unless it is killed, the first process panics or both do the same. -/
structure SBelow (m n : Sys α) : Prop where
  at_ : ∀ w, NoKill w → (m w).1 = .error (.exited 101) ∨ m w = n w

theorem SBelow.refl (m : Sys α) : SBelow m m := ⟨fun _ _ => .inr rfl⟩

/-- A process after which the rest will not be killed if all of it will not. -/
structure Keeps (m : Sys α) : Prop where
  at_ : ∀ w, NoKill w → NoKill (m w).2

theorem SBelow.bind {m : Sys α} {f g : α → Sys β} (h : Keeps m) (hf : ∀ a, SBelow (f a) (g a)) :
    SBelow (m >>= f) (m >>= g) := by
  constructor
  intro w hw
  have hk := h.at_ w hw
  revert hk
  match hm : m w with
  | (.ok a, w') =>
    intro hk
    rw [bind_ok hm, bind_ok hm]
    exact (hf a).at_ w' hk
  | (.error e, w') =>
    intro hk
    rw [bind_error hm, bind_error hm]
    exact .inr rfl

theorem operation_keeps {normal : World → α × World} {failing : Nat → World → α × World} {killed : Nat → World → World}
    (h1 : ∀ w, (normal w).2.faults = w.faults) (h2 : ∀ n w, (failing n w).2.faults = w.faults) :
    Keeps (operation normal failing killed) := by
  constructor
  intro w hw
  unfold operation
  split
  · next h => exact ⟨fun n => by simpa only [h1] using hw.none n⟩
  · next fs h =>
    refine ⟨fun n => ?_⟩
    have := hw.none n
    rw [h] at this
    simp only [h1]
    simp_all
  · next m fs h =>
    refine ⟨fun n => ?_⟩
    have := hw.none n
    rw [h] at this
    simp only [h2]
    simp_all
  · next m fs h =>
    have := hw.none m
    rw [h] at this
    simp at this

theorem openFile_keeps (path : Path) : Keeps (openFile path) := operation_keeps (fun _ => rfl) (fun _ _ => rfl)

theorem createNew_keeps (path : Path) : Keeps (createNew path) := by
  refine operation_keeps (fun w => ?_) (fun _ _ => rfl)
  split <;> rfl

theorem create_keeps (path : Path) : Keeps (create path) := by
  refine operation_keeps (fun w => ?_) (fun _ _ => rfl)
  split
  · rfl
  · split <;> rfl

theorem ofOutcome_keeps (o : Outcome α) : Keeps (ofOutcome o) := by
  constructor
  intro w hw
  cases o <;> exact hw

theorem finishPatch_panic (temp patchable : Path) (w : World) (hw : NoKill w) :
    (finishPatch temp patchable (.panic : Outcome β) w).1 = .error (.exited 101) := by
  have hr : ∃ a w', removeFile temp w = (.ok a, w') := by
    unfold removeFile operation
    split
    · exact ⟨_, _, rfl⟩
    · exact ⟨_, _, rfl⟩
    · exact ⟨_, _, rfl⟩
    · next n fs h =>
      have := hw.none n
      rw [h] at this
      simp at this
  obtain ⟨a, w', hr⟩ := hr
  show ((dropTemp temp >>= fun _ => exit 101) w).1 = _
  have hd : dropTemp temp w = (.ok (), w') := by
    unfold dropTemp
    exact bind_ok hr
  rw [bind_ok hd]
  rfl

theorem writeFinish_below (temp patchable : Path) (i : Nat) {m n : WM β} (h : WBelow m n) :
    SBelow (writeFile i m >>= finishPatch temp patchable) (writeFile i n >>= finishPatch temp patchable) := by
  constructor
  intro w hw
  have key : ∀ (x y : Outcome β) (w1 w2 : World), NoKill w1 → (x = .panic ∨ (x = y ∧ w1 = w2)) →
      (finishPatch temp patchable x w1).1 = .error (.exited 101) ∨
        finishPatch temp patchable x w1 = finishPatch temp patchable y w2 := by
    rintro x y w1 w2 hk (rfl | ⟨rfl, rfl⟩)
    · exact .inl (finishPatch_panic _ _ _ hk)
    · exact .inr rfl
  have hrun : m.run.1 = .panic ∨ m.run = n.run := by
    rcases h.at_ ⟨[], none⟩ with h | h
    · exact .inl h
    · right; unfold WM.run; rw [h]
  rcases w with ⟨fs0, _ | ⟨_ | k | k, fs⟩, so⟩
  · have e1 : writeFile i m ⟨fs0, [], so⟩ = (.ok m.run.1, ⟨fs0.set i (some (.file m.run.2)), [], so⟩) := rfl
    have e2 : writeFile i n ⟨fs0, [], so⟩ = (.ok n.run.1, ⟨fs0.set i (some (.file n.run.2)), [], so⟩) := rfl
    rw [bind_ok e1, bind_ok e2]
    refine key _ _ _ _ ⟨hw.none⟩ ?_
    rcases hrun with h | h
    · exact .inl h
    · exact .inr ⟨by rw [h], by rw [h]⟩
  · have e1 : writeFile i m ⟨fs0, .none :: fs, so⟩ = (.ok m.run.1, ⟨fs0.set i (some (.file m.run.2)), fs, so⟩) := rfl
    have e2 : writeFile i n ⟨fs0, .none :: fs, so⟩ = (.ok n.run.1, ⟨fs0.set i (some (.file n.run.2)), fs, so⟩) := rfl
    rw [bind_ok e1, bind_ok e2]
    refine key _ _ _ _ ⟨fun n hn => hw.none n (List.mem_cons_of_mem _ hn)⟩ ?_
    rcases hrun with h | h
    · exact .inl h
    · exact .inr ⟨by rw [h], by rw [h]⟩
  · have e1 : writeFile i m ⟨fs0, .fail k :: fs, so⟩ =
        (.ok (m ⟨[], some k⟩).1, ⟨fs0.set i (some (.file (m ⟨[], some k⟩).2.out)), fs, so⟩) := rfl
    have e2 : writeFile i n ⟨fs0, .fail k :: fs, so⟩ =
        (.ok (n ⟨[], some k⟩).1, ⟨fs0.set i (some (.file (n ⟨[], some k⟩).2.out)), fs, so⟩) := rfl
    rw [bind_ok e1, bind_ok e2]
    refine key _ _ _ _ ⟨fun n hn => hw.none n (List.mem_cons_of_mem _ hn)⟩ ?_
    rcases h.at_ ⟨[], some k⟩ with h | h
    · exact .inl h
    · exact .inr ⟨by rw [h], by rw [h]⟩
  · exact absurd (by simp) (hw.none k)

theorem patchFile_below {γ : Type} (temp patchable : Path) (read : Reader → Outcome γ) {f g : γ → WM β}
    (h : ∀ c, WBelow (f c) (g c)) : SBelow (patchFile temp patchable read f) (patchFile temp patchable read g) := by
  unfold patchFile patchContent
  refine SBelow.bind (openFile_keeps _) fun r => ?_
  cases r with
  | none => exact .refl _
  | some r =>
    refine SBelow.bind (ofOutcome_keeps _) fun c => ?_
    cases c with
    | none => exact .refl _
    | some c =>
      refine SBelow.bind (createNew_keeps _) fun r => ?_
      cases r with
      | none => exact .refl _
      | some r =>
        refine SBelow.bind (create_keeps _) fun r => ?_
        cases r with
        | none => exact .refl _
        | some i => exact writeFinish_below _ _ _ (h c)

theorem pwPatch_below (temp patch : Path) (reverse : Bool) :
    SBelow (pwPatch .debug temp patch reverse) (pwPatch .release temp patch reverse) := by
  unfold pwPatch
  refine SBelow.bind (openFile_keeps _) fun r => ?_
  cases r with
  | none => exact .refl _
  | some r =>
    refine SBelow.bind (ofOutcome_keeps _) fun d => ?_
    cases d with
    | none => exact .refl _
    | some d =>
      cases d with
      | textChange d => exact patchFile_below _ _ _ fun ls => applyInto_below _ _ _
      | byteChange d => exact patchFile_below _ _ _ fun ls => byteApplyInto_below _ _ _
      | textAdd d => exact .refl _
      | textRemove d => exact .refl _
      | byteAdd d => exact .refl _
      | byteRemove d => exact .refl _

end PwDiff
