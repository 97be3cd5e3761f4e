import Verif.Model.ApplyText

/-! # `pw_diff_lib/src/apply_bytes.rs` and the `ApplyClumpClean` part of `byte_diff.rs`

`ByteChangeClump` (byte_diff.rs:16-21) has the fields of `TextChangeClump`: it is `DiffClump UInt8`.  Log messages are
left to `Model/Logging`. -/

namespace PwDiff

/-- byte_diff.rs:54-57 `will_apply`. -/
def byteWillApply (p : Profile) (c : DiffClump UInt8) (data : List UInt8) (reverse : Bool) : Outcome Bool :=
  hasSubsequenceAt p data (c.beforeSide reverse).items (c.beforeSide reverse).start

/-- byte_diff.rs:59-62 `is_already_applied`. -/
def byteIsAlreadyApplied (p : Profile) (c : DiffClump UInt8) (data : List UInt8) (reverse : Bool) : Outcome Bool :=
  hasSubsequenceAt p data (c.afterSide reverse).items (c.afterSide reverse).start

/-- byte_diff.rs:64-75 `apply_into`. -/
def byteClumpApplyInto (p : Profile) (c : DiffClump UInt8) (pd : ConsumableSeq UInt8) (reverse : Bool) :
    WM (ConsumableSeq UInt8) := do
  let pd ← pd.writeIntoUpto p (c.beforeSide reverse).start
  (c.afterSide reverse).writeInto p none
  let pd ← (pd.advanceConsumedBy p (c.beforeSide reverse).len : Outcome _)
  return pd

/-- byte_diff.rs:77-85 `already_applied_into`. -/
def byteAlreadyAppliedInto (p : Profile) (c : DiffClump UInt8) (pd : ConsumableSeq UInt8) (reverse : Bool) :
    WM (ConsumableSeq UInt8) := do
  let e ← (uadd p (c.afterSide reverse).start (c.afterSide reverse).len : Outcome _)
  pd.writeIntoUpto p e

/-- apply_bytes.rs:43-54: the body of the loop of `ApplyClumpsClean::apply_into`. -/
def byteApplyStep (p : Profile) (patchable : List UInt8) (reverse : Bool) (clump : DiffClump UInt8)
    (pd : ConsumableSeq UInt8) : WM (ConsumableSeq UInt8) := do
  if ← (byteWillApply p clump patchable reverse : Outcome Bool) then byteClumpApplyInto p clump pd reverse
  else if ← (byteIsAlreadyApplied p clump patchable reverse : Outcome Bool) then byteAlreadyAppliedInto p clump pd reverse
  else return pd

/-- apply_bytes.rs:43-54: the loop of `ApplyClumpsClean::apply_into`. -/
def byteApplyLoop (p : Profile) (patchable : List UInt8) (reverse : Bool) :
    List (DiffClump UInt8) → ConsumableSeq UInt8 → WM (ConsumableSeq UInt8)
  | [], pd => pure pd
  | clump :: rest, pd => do
    let pd ← byteApplyStep p patchable reverse clump pd
    byteApplyLoop p patchable reverse rest pd

/-- apply_bytes.rs:34-56 `ApplyClumpsClean::apply_into`. -/
def byteApplyInto (p : Profile) (clumps : List (DiffClump UInt8)) (patchable : List UInt8) (reverse : Bool) : WM Unit := do
  let pd ← byteApplyLoop p patchable reverse clumps (ConsumableSeq.new patchable)
  let _ ← pd.writeRemainder p
  return ()

/-- apply_bytes.rs:58-71 `ApplyClumpsClean::already_applied`. -/
def byteAlreadyApplied (p : Profile) (patchable : List UInt8) (reverse : Bool) : List (DiffClump UInt8) → Outcome Bool
  | [] => .ok true
  | clump :: rest => do
    if ← byteIsAlreadyApplied p clump patchable reverse then byteAlreadyApplied p patchable reverse rest
    else return false

end PwDiff
