import Verif.Model.Changes

/-! # `pw_diff_lib/src/apply_text.rs` and the clump part of `text_diff.rs`

The item type is kept generic (`Item T`); the Rust code is instantiated at `String` only. -/

namespace PwDiff

variable {T : Type}

/-- apply_text.rs:11-17 `trait TextClumpBasics`; `after_lines` is `before_lines` with `!reverse`. -/
class TextClump (C : Type) (T : outParam Type) extends ChangeBasics C where
  contextLengths : C → Nat × Nat
  beforeLines : Profile → C → Option Range → Bool → Outcome (List T)

/-- apply_text.rs:235-239 `enum WillApply`. -/
inductive WillApply where
  | cleanly
  | withReductions (r : Nat × Nat)
deriving DecidableEq, Repr

/-- apply_text.rs:241-248 `struct Statistics`. -/
structure Statistics where
  clean : Nat := 0
  fuzzy : Nat := 0
  alreadyApplied : Nat := 0
  alreadyAppliedFuzzy : Nat := 0
  failed : Nat := 0
deriving DecidableEq, Repr

section clump

open ChangeBasics TextClump

variable {C : Type} [TextClump C T]

/-- apply_text.rs:20-31 `before_adjusted_start`. -/
def beforeAdjustedStart (p : Profile) (c : C) (offset : Int) (reductions : Option (Nat × Nat)) (reverse : Bool) :
    Outcome Int :=
  match reductions with
  | some (startRedn, _) => do
    let s ← iadd p (asIsize (beforeStart c reverse)) offset
    iadd p s startRedn
  | none => iadd p (asIsize (beforeStart c reverse)) offset

/-- apply_text.rs:33-40 `after_adjusted_start`. -/
def afterAdjustedStart (p : Profile) (c : C) (offset : Int) (reductions : Option (Nat × Nat)) (reverse : Bool) :
    Outcome Int :=
  beforeAdjustedStart p c offset reductions (!reverse)

/-- apply_text.rs:42-48 `before_adjusted_length`. -/
def beforeAdjustedLength (p : Profile) (c : C) (reductions : Option (Nat × Nat)) (reverse : Bool) : Outcome Nat :=
  match reductions with
  | some (startRedn, endRedn) => do
    let l ← beforeLength p c reverse
    let l ← usub p l startRedn
    usub p l endRedn
  | none => beforeLength p c reverse

/-- apply_text.rs:50-52 `after_adjusted_length`. -/
def afterAdjustedLength (p : Profile) (c : C) (reductions : Option (Nat × Nat)) (reverse : Bool) : Outcome Nat :=
  beforeAdjustedLength p c reductions (!reverse)

/-- apply_text.rs:54-71 `before_is_subsequence_in_at`. -/
def beforeIsSubsequenceInAt [DecidableEq T] (p : Profile) (c : C) (patchable : List T) (pos : Nat)
    (reductions : Option (Nat × Nat)) (reverse : Bool) : Outcome Bool := do
  let myRange ← myBeforeRange p c reductions reverse
  let fin ← uadd p pos myRange.len
  if fin > patchable.length then return false
  else do
    let mine ← beforeLines p c (some myRange) reverse
    let theirs ← subsequence patchable ⟨pos, fin⟩
    return (mine.zip theirs).all (fun (l, r) => l == r)

/-- `for line in lines { into.write_all(line.as_bytes())?; }` (apply_text.rs:81-83, 85-87). -/
def writeLines [Item T] : List T → WM Unit
  | [] => pure ()
  | l :: rest => do
    writeAll (Item.bytes l)
    writeLines rest

/-- apply_text.rs:73-90 `before_write_into`.  With reductions it indexes the clump's lines with `before_range`,
a range in *file* coordinates. -/
def beforeWriteInto [Item T] (p : Profile) (c : C) (reductions : Option (Nat × Nat)) (reverse : Bool) : WM Unit :=
  match reductions with
  | some r => do
    let range ← beforeRange p c (some r) reverse
    let lines ← (beforeLines p c (some range) reverse : Outcome (List T))
    writeLines lines
  | none => do
    let lines ← (beforeLines p c none reverse : Outcome (List T))
    writeLines lines

/-- apply_text.rs:92-99 `after_write_into`. -/
def afterWriteInto [Item T] (p : Profile) (c : C) (reductions : Option (Nat × Nat)) (reverse : Bool) : WM Unit :=
  beforeWriteInto p c reductions (!reverse)

/-- apply_text.rs:115-129: the reduction loop `for redn in 1..max_reduction`, over the list of values of `redn`. -/
def reductionLoop [DecidableEq T] (p : Profile) (c : C) (patchable : List T) (start : Int) (reverse : Bool) :
    List Nat → Outcome (Option WillApply)
  | [] => .ok none
  | redn :: rest => do
    let (startContextLen, endContextLen) := contextLengths c
    let startRedn := min redn startContextLen
    let endRedn := min redn endContextLen
    let adjStart ← iadd p start startRedn
    let hit ← if adjStart < 0 then pure false
      else beforeIsSubsequenceInAt p c patchable (asUsize adjStart) (some (startRedn, endRedn)) reverse
    if hit then return some (.withReductions (startRedn, endRedn))
    else reductionLoop p c patchable start reverse rest

/-- apply_text.rs:101-132 `will_apply`. -/
def willApply [DecidableEq T] (p : Profile) (c : C) (patchable : List T) (offset : Int) (reverse : Bool) :
    Outcome (Option WillApply) := do
  let start ← beforeAdjustedStart p c offset none reverse
  let hit ← if start < 0 then pure false
    else beforeIsSubsequenceInAt p c patchable (asUsize start) none reverse
  if hit then return some .cleanly
  else
    let (startContextLen, endContextLen) := contextLengths c
    let maxReduction := max startContextLen endContextLen
    reductionLoop p c patchable start reverse (List.range' 1 (maxReduction - 1))

/-- apply_text.rs:134-147 `apply_into` of a clump. -/
def clumpApplyInto [Item T] (p : Profile) (c : C) (pd : ConsumableSeq T) (offset : Int)
    (reductions : Option (Nat × Nat)) (reverse : Bool) : WM (ConsumableSeq T) := do
  let s ← beforeAdjustedStart p c offset reductions reverse
  let pd ← pd.writeIntoUpto p (asUsize s)
  afterWriteInto p c reductions reverse
  let l ← beforeAdjustedLength p c reductions reverse
  pd.advanceConsumedBy p l

/-- apply_text.rs:165-176: the backward half of a step of the search; the result is what was found and
`backward_done`. -/
def nearbyBackward [DecidableEq T] (p : Profile) (c : C) (pd : ConsumableSeq T) (offset : Int) (reverse : Bool) (i : Int)
    (backwardDone : Bool) : Outcome (Option WillApply × Bool) :=
  if backwardDone then .ok (none, true)
  else do
    let adjusted ← iadd p offset (-i)
    let s ← beforeAdjustedStart p c adjusted none reverse
    if s < asIsize pd.consumed then .ok (none, true)
    else do
      let w ← willApply p c pd.sequence adjusted reverse
      return (w, false)

/-- apply_text.rs:177-186: the forward half of a step of the search. -/
def nearbyForward [DecidableEq T] (p : Profile) (c : C) (pd : ConsumableSeq T) (notAfter : Nat) (offset : Int)
    (reverse : Bool) (i : Int) (forwardDone : Bool) : Outcome (Option WillApply × Bool) :=
  if forwardDone then .ok (none, true)
  else do
    let adjusted ← iadd p offset i
    let s ← beforeAdjustedStart p c adjusted none reverse
    if s < asIsize notAfter then do
      let w ← willApply p c pd.sequence adjusted reverse
      return (w, false)
    else .ok (none, true)

/-- apply_text.rs:164-190: the search loop of `will_apply_nearby` at step `i`.  `for i in 1isize..` computes the next value
before the body runs (`RangeFrom::next`), with the overflow behaviour of the build profile; `-i` likewise. -/
def nearbyLoop [DecidableEq T] (p : Profile) (c : C) (pd : ConsumableSeq T) (notAfter : Nat) (offset : Int)
    (reverse : Bool) : Nat → Int → Bool → Bool → Outcome (Option (Int × WillApply))
  | 0, _, _, _ => .diverge
  | fuel + 1, i, backwardDone, forwardDone => do
    let next ← iadd p i 1
    let (found, backwardDone) ← nearbyBackward p c pd offset reverse i backwardDone
    match found with
    | some w => do
      let back ← iadd p 0 (-i)
      return some (back, w)
    | none => do
      let (found, forwardDone) ← nearbyForward p c pd notAfter offset reverse i forwardDone
      match found with
      | some w => return some (i, w)
      | none =>
        if forwardDone && backwardDone then return none
        else nearbyLoop p c pd notAfter offset reverse fuel next backwardDone forwardDone

/-- apply_text.rs:156-161: the upper limit of the search. -/
def nearbyLimit (p : Profile) (c : C) (pd : ConsumableSeq T) (nextClump : Option C) (offset : Int)
    (reverse : Bool) : Outcome Nat :=
  match nextClump with
  | some next => do
    let s ← beforeAdjustedStart p next offset (some (contextLengths c)) reverse
    let l ← beforeAdjustedLength p c (some (contextLengths c)) reverse
    usub p (asUsize s) l
  | none => do
    let l ← beforeAdjustedLength p c (some (contextLengths c)) reverse
    usub p pd.sequence.length l

/-- Bound on the number of iterations of the search loop: after as many steps as there are machine words the positions looked
at repeat (shown to suffice for every patch in `Proofs/Ends`). -/
def nearbyFuel : Nat := wordSize + 1

/-- apply_text.rs:149-192 `will_apply_nearby`. -/
def willApplyNearby [DecidableEq T] (p : Profile) (c : C) (pd : ConsumableSeq T) (nextClump : Option C)
    (offset : Int) (reverse : Bool) : Outcome (Option (Int × WillApply)) := do
  let notAfter ← nearbyLimit p c pd nextClump offset reverse
  nearbyLoop p c pd notAfter offset reverse nearbyFuel 1 false false

/-- apply_text.rs:194-201 `is_already_applied` of a clump. -/
def clumpIsAlreadyApplied [DecidableEq T] (p : Profile) (c : C) (patchable : List T) (offset : Int)
    (reverse : Bool) : Outcome (Option WillApply) :=
  willApply p c patchable offset (!reverse)

/-- apply_text.rs:203-211 `is_already_applied_nearby`. -/
def clumpIsAlreadyAppliedNearby [DecidableEq T] (p : Profile) (c : C) (pd : ConsumableSeq T)
    (nextClump : Option C) (offset : Int) (reverse : Bool) : Outcome (Option (Int × WillApply)) :=
  willApplyNearby p c pd nextClump offset (!reverse)

/-- apply_text.rs:213-224 `already_applied_into`. -/
def alreadyAppliedInto [Item T] (p : Profile) (c : C) (pd : ConsumableSeq T) (offset : Int)
    (reductions : Option (Nat × Nat)) (reverse : Bool) : WM (ConsumableSeq T) := do
  let s ← afterAdjustedStart p c offset reductions reverse
  let l ← afterAdjustedLength p c reductions reverse
  let fin ← uadd p (asUsize s) l
  pd.writeIntoUpto p fin

/-- The bytes of the three conflict markers (apply_text.rs:227, 229, 231). -/
def markerBefore : List UInt8 := [60, 60, 60, 60, 60, 60, 60, 10]
def markerMiddle : List UInt8 := [61, 61, 61, 61, 61, 61, 61, 10]
def markerAfter : List UInt8 := [62, 62, 62, 62, 62, 62, 62, 10]

/-- apply_text.rs:226-232 `write_failure_data_into`. -/
def writeFailureDataInto [Item T] (p : Profile) (c : C) (reverse : Bool) : WM Unit := do
  writeAll markerBefore
  beforeWriteInto p c none reverse
  writeAll markerMiddle
  afterWriteInto p c none reverse
  writeAll markerAfter

/-- apply_text.rs:269-348: one iteration of the loop of `ApplyClumpsFuzzy::apply_into`.
`next` is `iter.peek()`; the state is the consumable sequence, the offset and the statistics (the messages are in `Model/Logging`). -/
def applyStep [DecidableEq T] [Item T] (p : Profile) (patchable : List T) (reverse : Bool) (clump : C)
    (next : Option C) (pd : ConsumableSeq T) (offset : Int) (stats : Statistics) :
    WM (ConsumableSeq T × Int × Statistics) := do
  match ← (willApply p clump patchable offset reverse : Outcome _) with
  | some .cleanly => do
    let pd ← clumpApplyInto p clump pd offset none reverse
    return (pd, offset, { stats with clean := stats.clean + 1 })
  | some (.withReductions r) => do
    let pd ← clumpApplyInto p clump pd offset (some r) reverse
    return (pd, offset, { stats with fuzzy := stats.fuzzy + 1 })
  | none => do
  match ← (willApplyNearby p clump pd next offset reverse : Outcome _) with
  | some (adj, w) => do
    let offset ← iadd p offset adj
    match w with
    | .cleanly => do
      let pd ← clumpApplyInto p clump pd offset none reverse
      return (pd, offset, { stats with fuzzy := stats.fuzzy + 1 })
    | .withReductions r => do
      let pd ← clumpApplyInto p clump pd offset (some r) reverse
      return (pd, offset, { stats with fuzzy := stats.fuzzy + 1 })
  | none => do
  match ← (clumpIsAlreadyApplied p clump patchable offset reverse : Outcome _) with
  | some .cleanly => do
    let pd ← alreadyAppliedInto p clump pd offset none reverse
    return (pd, offset, { stats with alreadyApplied := stats.alreadyApplied + 1 })
  | some (.withReductions r) => do
    let pd ← alreadyAppliedInto p clump pd offset (some r) reverse
    return (pd, offset, { stats with alreadyAppliedFuzzy := stats.alreadyAppliedFuzzy + 1 })
  | none => do
  match ← (clumpIsAlreadyAppliedNearby p clump pd next offset reverse : Outcome _) with
  | some (adj, w) => do
    let offset ← iadd p offset adj
    match w with
    | .cleanly => do
      let pd ← alreadyAppliedInto p clump pd offset none reverse
      return (pd, offset, { stats with alreadyAppliedFuzzy := stats.alreadyAppliedFuzzy + 1 })
    | .withReductions r => do
      let pd ← alreadyAppliedInto p clump pd offset (some r) reverse
      return (pd, offset, { stats with alreadyAppliedFuzzy := stats.alreadyAppliedFuzzy + 1 })
  | none => do
    writeFailureDataInto p clump reverse
    return (pd, offset, { stats with failed := stats.failed + 1 })

/-- apply_text.rs:269-348: the loop of `ApplyClumpsFuzzy::apply_into`. -/
def applyLoop [DecidableEq T] [Item T] (p : Profile) (patchable : List T) (reverse : Bool) :
    List C → ConsumableSeq T → Int → Statistics → WM (ConsumableSeq T × Statistics)
  | [], pd, _, stats => pure (pd, stats)
  | clump :: rest, pd, offset, stats => do
    let (pd, offset, stats) ← applyStep p patchable reverse clump rest.head? pd offset stats
    applyLoop p patchable reverse rest pd offset stats

/-- apply_text.rs:258-351 `ApplyClumpsFuzzy::apply_into`. -/
def applyInto [DecidableEq T] [Item T] (p : Profile) (clumps : List C) (patchable : List T) (reverse : Bool) :
    WM Statistics := do
  let (pd, stats) ← applyLoop p patchable reverse clumps (ConsumableSeq.new patchable) 0 {}
  let _ ← pd.writeRemainder p
  return stats

/-- apply_text.rs:358-388: the loop of `ApplyClumpsFuzzy::is_already_applied`. -/
def isAlreadyAppliedLoop [DecidableEq T] (p : Profile) (patchable : List T) (reverse : Bool)
    (pd : ConsumableSeq T) : List C → Int → Outcome Bool
  | [], _ => .ok true
  | clump :: rest, offset => do
    match ← clumpIsAlreadyApplied p clump patchable offset reverse with
    | some _ => isAlreadyAppliedLoop p patchable reverse pd rest offset
    | none => do
      match ← clumpIsAlreadyAppliedNearby p clump pd rest.head? offset reverse with
      | some (adj, _) => do
        let offset ← iadd p offset adj
        isAlreadyAppliedLoop p patchable reverse pd rest offset
      | none => return false

/-- apply_text.rs:353-389 `ApplyClumpsFuzzy::is_already_applied`. -/
def isAlreadyApplied [DecidableEq T] (p : Profile) (clumps : List C) (patchable : List T) (reverse : Bool) :
    Outcome Bool :=
  isAlreadyAppliedLoop p patchable reverse (ConsumableSeq.new patchable) clumps 0

end clump

/-! ## `TextChangeClump` (text_diff.rs:14-83) -/

/-- text_diff.rs:14-19 `struct TextChangeClump`; also byte_diff.rs:16-21 `struct ByteChangeClump`, which has the same
fields. -/
structure DiffClump (T : Type) where
  contextLengths : Nat × Nat
  before : Snippet T
  after : Snippet T
deriving DecidableEq, Repr

namespace DiffClump

/-- text_diff.rs:65-72, byte_diff.rs:36-42 `before(reverse)`. -/
def beforeSide (c : DiffClump T) (reverse : Bool) : Snippet T := if reverse then c.after else c.before
/-- text_diff.rs:74-80, byte_diff.rs:44-50 `after(reverse)`. -/
def afterSide (c : DiffClump T) (reverse : Bool) : Snippet T := if reverse then c.before else c.after

/-- text_diff.rs:21-31, byte_diff.rs:23-33 `From<ChangeClump>`. -/
def ofChangeClump (before after : List T) (cc : ChangeClump) : Outcome (DiffClump T) := do
  let (beforeRange, afterRange) := cc.ranges
  let b ← extractSnippet before beforeRange
  let a ← extractSnippet after afterRange
  return ⟨cc.contextLengths, b, a⟩

/-- text_diff.rs:33-49 `ChangeBasics for TextChangeClump`. -/
instance : ChangeBasics (DiffClump T) where
  beforeStart c reverse := (c.beforeSide reverse).start
  beforeEnd p c reverse := uadd p (c.beforeSide reverse).start (c.beforeSide reverse).items.length
  beforeLength p c reverse :=
    ChangeBasics.defaultBeforeLength p (c.beforeSide reverse).start
      (uadd p (c.beforeSide reverse).start (c.beforeSide reverse).items.length)

/-- text_diff.rs:51-63 `TextClumpBasics for TextChangeClump`. -/
instance : TextClump (DiffClump T) T where
  contextLengths c := c.contextLengths
  beforeLines p c range reverse := (c.beforeSide reverse).itemsIn p range

end DiffClump

/-- `.map(|c| TextChangeClump::from(c)).collect()` (text_diff.rs:101-104, byte_diff.rs:107-110). -/
def clumpsOfChangeClumps (before after : List T) : List ChangeClump → Outcome (List (DiffClump T))
  | [] => .ok []
  | cc :: rest => do
    let c ← DiffClump.ofChangeClump before after cc
    let cs ← clumpsOfChangeClumps before after rest
    return c :: cs

/-- The clumps of `TextChangeDiff::new` (text_diff.rs:93-106) and `ByteChangeDiff::new` (byte_diff.rs:97-112)
from the contents of the two files. -/
def diffClumps [DecidableEq T] [Item T] (p : Profile) (before after : List T) (context : Nat) :
    Outcome (List (DiffClump T)) := do
  let changes ← changesOf p before after
  let ccs ← changeClumps context changes
  clumpsOfChangeClumps before after ccs

end PwDiff
