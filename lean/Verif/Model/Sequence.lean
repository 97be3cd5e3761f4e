import Verif.Model.Range

/-! # `pw_diff_lib/src/sequence.rs` and `snippet.rs`

`Seq<T>(Box<[T]>)` (sequence.rs:11-12) is `List T`. -/

namespace PwDiff

/-! ## Item types: what `Seq<String>` and `Seq<u8>` do differently -/

/-- A hash map or table from items to index lists. -/
abbrev Indices (T : Type) := T → Option (List Nat)

/-- The operations that are implemented separately for `Seq<String>` and `Seq<u8>`. -/
class Item (T : Type) where
  /-- the bytes of one item (`String::as_bytes`, or the byte itself) -/
  bytes : T → List UInt8
  /-- writing a slice of items to a writer -/
  writeItems : List T → WM Unit
  /-- `ContentItemIndices::generate_from` followed by `indices` -/
  generateFrom : List T → Indices T

/-- `for datum in items.iter() { into.write_all(datum.as_bytes())?; }` as in sequence.rs:170-173, 178-181 and
snippet.rs:74-76, 78-80. -/
def writeStrs : List Str → WM Unit
  | [] => pure ()
  | s :: rest => do
    writeAll s.bytes
    writeStrs rest

/-- `HashMap::insert` / `get_mut(..).push`: functional update of a map. -/
def Indices.set {T : Type} [DecidableEq T] (m : Indices T) (k : T) (v : List Nat) : Indices T :=
  fun x => if x = k then some v else m x

/-- sequence.rs:111-118: the loop of `StringItemIndices::generate_from` from position `index` on. -/
def mapIndicesLoop {T : Type} [DecidableEq T] : List T → Nat → Indices T → Indices T
  | [], _, m => m
  | line :: rest, index, m =>
    match m line with
    | some vec => mapIndicesLoop rest (index + 1) (m.set line (vec ++ [index]))
    | none => mapIndicesLoop rest (index + 1) (m.set line [index])

/-- sequence.rs:108-125 `StringItemIndices::generate_from` and `indices` (the `HashMap` is its lookup function). -/
def mapIndices {T : Type} [DecidableEq T] (seq : List T) : Indices T := mapIndicesLoop seq 0 (fun _ => none)

/-- sequence.rs:134-136: the loop of `ByteItemIndices::generate_from`; the array of 256 `Vec`s is a function. -/
def byteTableLoop : List UInt8 → Nat → (UInt8 → List Nat) → (UInt8 → List Nat)
  | [], _, t => t
  | byte :: rest, index, t => byteTableLoop rest (index + 1) (fun x => if x = byte then t x ++ [index] else t x)

/-- sequence.rs:130-147 `ByteItemIndices::generate_from` and `indices` (empty entries read as `None`). -/
def byteIndices (seq : List UInt8) : Indices UInt8 := fun item =>
  let result := byteTableLoop seq 0 (fun _ => []) item
  if result.isEmpty then none else some result

/-- `Seq<String>`. -/
instance : Item Str where
  bytes := Str.bytes
  writeItems := writeStrs
  generateFrom := mapIndices

/-- `Seq<u8>`: sequence.rs:155-165 hand the whole slice to one `write_all`. -/
instance : Item UInt8 where
  bytes b := [b]
  writeItems l := writeAll l
  generateFrom := byteIndices

variable {T : Type}

/-! ## `Seq<T>` -/

/-- sequence.rs:23-25 `range_from`. -/
def rangeFrom (seq : List T) (start : Nat) : Range := ⟨start, seq.length⟩

/-- sequence.rs:27-29 `subsequence`. -/
def subsequence (seq : List T) (r : Range) : Outcome (List T) := slice seq r.start r.fin

/-- sequence.rs:31-40 `has_subsequence_at` (`&&` does not evaluate the subtraction if `at` is too large). -/
def hasSubsequenceAt [DecidableEq T] (p : Profile) (seq : List T) (sub : List T) (pos : Nat) : Outcome Bool :=
  if pos < seq.length then do
    let room ← usub p seq.length pos
    if room ≥ sub.length then do
      let rest ← sliceFrom seq pos
      return (sub.zip rest).all (fun (b, a) => a == b)
    else return false
  else .ok false

/-- snippet.rs:9-12 `struct Snippet<T>`. -/
structure Snippet (T : Type) where
  start : Nat
  items : List T
deriving DecidableEq, Repr

/-- sequence.rs:42-46 `extract_snippet`. -/
def extractSnippet (seq : List T) (r : Range) : Outcome (Snippet T) := do
  let items ← slice seq r.start r.fin
  return ⟨r.start, items⟩

/-! ### Reading -/

/-- What a `R: Read` delivers: its bytes, then either end of file or an io error. -/
structure Reader where
  data : List UInt8
  fails : Bool
deriving DecidableEq, Repr

/-- `String::from_utf8` on the bytes of a line. -/
def decodeUtf8 (bs : List UInt8) : Option Str :=
  (ByteArray.mk bs.toArray).utf8Decode?.map Array.toList

/-- The bytes up to and including the first `\n`, the rest, and whether a `\n` was found (`BufRead::read_until`). -/
def splitLine : List UInt8 → List UInt8 × List UInt8 × Bool
  | [] => ([], [], false)
  | b :: bs =>
    if b = 10 then ([b], bs, true)
    else
      let (l, r, f) := splitLine bs
      (b :: l, r, f)

/-- `BufRead::read_line` on the not yet delivered part of a reader: the line and the rest. -/
def readLine (r : Reader) : Outcome (Str × Reader) :=
  let (l, rest, found) := splitLine r.data
  if !found && r.fails then .ioErr
  else match decodeUtf8 l with
    | some s => .ok (s, { r with data := rest })
    | none => .ioErr

/-- sequence.rs:53-60: the loop of `Seq::<String>::read` (also text_diff.rs:145-152); `read_line` returns 0 exactly
when the line is empty. -/
def readLoop : Nat → Reader → List Str → Outcome (List Str)
  | 0, _, _ => .diverge
  | fuel + 1, r, lines => do
    let (line, r') ← readLine r
    if line.isEmpty then return lines
    else readLoop fuel r' (lines ++ [line])

/-- sequence.rs:50-62 `Seq::<String>::read`.  The loop runs at most once per byte plus once for end of file. -/
def readText (r : Reader) : Outcome (List Str) := readLoop (r.data.length + 1) r []

/-- sequence.rs:66-71 `Seq::<u8>::read`. -/
def readBytes (r : Reader) : Outcome (List UInt8) := if r.fails then .ioErr else .ok r.data

/-- `str::split_inclusive('\n')`. -/
def splitInclusive : Str → List Str
  | [] => []
  | c :: cs =>
    if c = '\n' then [c] :: splitInclusive cs
    else match splitInclusive cs with
      | [] => [[c]]
      | l :: ls => (c :: l) :: ls

/-- sequence.rs:74-84 `From<String>` / `From<&str>` for `Seq<String>`. -/
def fromText (text : Str) : List Str := splitInclusive text

/-! ### Writing -/

/-- sequence.rs:156-159 and 168-174 `WriteDataInto::write_into`. -/
def writeInto [Item T] (p : Profile) (seq : List T) (r : Range) : WM Unit := do
  debugAssert p (r.isValidForMaxEnd seq.length)
  let items ← (slice seq r.start r.fin : Outcome (List T))
  Item.writeItems items

/-- sequence.rs:161-164 and 176-182 `WriteDataInto::write_into_all_from`. -/
def writeIntoAllFrom [Item T] (p : Profile) (seq : List T) (start : Nat) : WM Unit := do
  debugAssert p (start ≤ seq.length)
  let items ← (sliceFrom seq start : Outcome (List T))
  Item.writeItems items

/-! ## `ConsumableSeq` -/

/-- sequence.rs:186-192 `struct ConsumableSeq`. -/
structure ConsumableSeq (T : Type) where
  sequence : List T
  consumed : Nat
deriving DecidableEq, Repr

namespace ConsumableSeq

/-- sequence.rs:212-217 `new`. -/
def new (seq : List T) : ConsumableSeq T := ⟨seq, 0⟩

/-- sequence.rs:229-231 `range_from`. -/
def rangeFrom (c : ConsumableSeq T) (start : Nat) : Range := ⟨start, c.sequence.length⟩

/-- sequence.rs:238-240 `advance_consumed_by`. -/
def advanceConsumedBy (p : Profile) (c : ConsumableSeq T) (increment : Nat) : Outcome (ConsumableSeq T) := do
  let n ← uadd p c.consumed increment
  return { c with consumed := n }

/-- sequence.rs:242-253 `write_into_upto`. -/
def writeIntoUpto [Item T] (p : Profile) (c : ConsumableSeq T) (upto : Nat) : WM (ConsumableSeq T) := do
  debugAssert p (upto ≤ c.sequence.length)
  if c.consumed < upto then
    writeInto p c.sequence ⟨c.consumed, upto⟩
    return { c with consumed := upto }
  else
    return c

/-- sequence.rs:255-259 `write_remainder`. -/
def writeRemainder [Item T] (p : Profile) (c : ConsumableSeq T) : WM (ConsumableSeq T) := do
  writeInto p c.sequence (c.rangeFrom c.consumed)
  return { c with consumed := c.sequence.length }

end ConsumableSeq

/-! ## `Snippet<T>` -/

namespace Snippet

/-- snippet.rs:14-18 `Len`. -/
def len (s : Snippet T) : Nat := s.items.length

/-- snippet.rs:21-30 `range`. -/
def range (p : Profile) (s : Snippet T) (reductions : Option (Nat × Nat)) : Outcome Range :=
  match reductions with
  | some (sr, er) => do
    let e ← usub p s.items.length er
    return ⟨sr, e⟩
  | none => .ok ⟨0, s.items.length⟩

/-- snippet.rs:32-38 `adj_length`. -/
def adjLength (p : Profile) (s : Snippet T) (reductions : Option (Nat × Nat)) : Outcome Nat :=
  match reductions with
  | some (sr, er) => do
    let x ← usub p s.items.length sr
    usub p x er
  | none => .ok s.items.length

/-- `usize::checked_add_signed(..).expect("underflow")`. -/
def checkedAddSigned (a : Nat) (off : Int) : Outcome Nat :=
  if 0 ≤ (a : Int) + off ∧ (a : Int) + off < wordSize then .ok ((a : Int) + off).toNat else .panic

/-- snippet.rs:40-46 `adj_start`. -/
def adjStart (p : Profile) (s : Snippet T) (offset : Int) (reductions : Option (Nat × Nat)) : Outcome Nat :=
  match reductions with
  | some (sr, _) => do
    let x ← checkedAddSigned s.start offset
    uadd p sr x
  | none => checkedAddSigned s.start offset

/-- snippet.rs:48-55 `items(range)`.  The sum inside the `debug_assert!` is itself overflow checked. -/
def itemsIn (p : Profile) (s : Snippet T) (range : Option Range) : Outcome (List T) :=
  match range with
  | some r => do
    match p with
    | .debug => do
      let m ← uadd .debug s.len s.start
      debugAssert .debug (r.isValidForMaxEnd m)
    | .release => pure ()
    slice s.items r.start r.fin
  | none => .ok s.items

/-- snippet.rs:62-84 `SnippetWrite::write_into`. -/
def writeInto [Item T] (p : Profile) (s : Snippet T) (reductions : Option (Nat × Nat)) : WM Unit :=
  match reductions with
  | some (start, e) => do
    let x ← usub p s.items.length e
    let items ← (slice s.items start x : Outcome (List T))
    Item.writeItems items
  | none => Item.writeItems s.items

end Snippet

end PwDiff
