import Verif.Model.Sequence

/-! # `pw_diff_lib/src/data.rs`

The predecessor of `sequence.rs`.  The file is not compiled any more (`lib.rs:8` is commented out), nothing else in the model uses
it.  `Data<T>(Box<[T]>)` (data.rs:42-43) is `List T`.  These parts are word for word those of `sequence.rs` and have no model of
their own: the index tables (data.rs:11-40, 69-117; `mapIndices`, `byteIndices`), `From` (data.rs:45-61; `fromText`), `read`
(data.rs:229-252; `readText`, `readBytes`), `extract_snippet` (data.rs:167-188; `extractSnippet`), `range_from`, `subsequence` and
`has_subsequence_at` (data.rs:190-227; `rangeFrom`, `subsequence`, `hasSubsequenceAt`).  What differs is writing: instead of
asserting that a range is valid the functions return whether it is. -/

namespace PwDiff

variable {T : Type}

/-- data.rs:124-132, 143-153 `WriteDataInto::write_into`. -/
def Data.writeInto [Item T] (data : List T) (range : Range) : WM Bool := do
  if range.fin > data.length ∨ range.start > data.length then
    return false
  else
    let items ← (slice data range.start range.fin : Outcome (List T))
    Item.writeItems items
    return true

/-- data.rs:134-140, 155-164 `write_into_all_from`. -/
def Data.writeIntoAllFrom [Item T] (data : List T) (start : Nat) : WM Unit := do
  if start < data.length then
    let items ← (sliceFrom data start : Outcome (List T))
    Item.writeItems items
  else return ()

/-- data.rs:254-262 `struct ConsumableData`. -/
structure ConsumableData (T : Type) where
  data : List T
  consumed : Nat
deriving DecidableEq, Repr

namespace ConsumableData

/-- data.rs:282-288 `new`. -/
def new (data : List T) : ConsumableData T := ⟨data, 0⟩

/-- data.rs:300-302 `range_from`. -/
def rangeFrom (c : ConsumableData T) (start : Nat) : Range := ⟨start, c.data.length⟩

/-- data.rs:309-311 `advance_consumed_by`. -/
def advanceConsumedBy (p : Profile) (c : ConsumableData T) (increment : Nat) : Outcome (ConsumableData T) := do
  let n ← uadd p c.consumed increment
  return { c with consumed := n }

/-- data.rs:313-327 `write_into_upto`. -/
def writeIntoUpto [Item T] (c : ConsumableData T) (upto : Nat) : WM (Bool × ConsumableData T) := do
  if upto ≤ c.data.length then
    if c.consumed < upto then
      let b ← Data.writeInto c.data ⟨c.consumed, upto⟩
      return (b, { c with consumed := upto })
    else return (decide (c.consumed = upto), c)
  else return (false, c)

/-- data.rs:328-332 `write_remainder`. -/
def writeRemainder [Item T] (c : ConsumableData T) : WM (Bool × ConsumableData T) := do
  let b ← Data.writeInto c.data (c.rangeFrom c.consumed)
  return (b, { c with consumed := c.data.length })

end ConsumableData

end PwDiff
