import Verif.Model.ApplyText
import Verif.Model.ApplyBytes
import Verif.Model.Json

/-!
# Diffs and their JSON form

text_diff.rs, byte_diff.rs and diff.rs: the types of diffs and what the `#[derive(Serialize, Deserialize)]` on them means
(serde's documented data model: a struct is an object with its fields in order, read from an object in any order with
unknown fields ignored, or from an array of the fields in order; an enum with data is an object with one field; a tuple
is an array; a `PathBuf` is a string and fails to serialise if it is not UTF-8).  Making diffs from files is in
`Model/Programs.lean`.
-/

namespace PwDiff

/-- A path: the bytes of an `OsStr` on Unix. -/
abbrev Path := List UInt8

/-- text_diff.rs:85-90. -/
structure TextChangeDiff where
  beforePath : Path
  afterPath : Path
  clumps : List (DiffClump Str)
deriving DecidableEq

/-- byte_diff.rs:88-94. -/
structure ByteChangeDiff where
  beforePath : Path
  afterPath : Path
  compressed : Bool
  clumps : List (DiffClump UInt8)
deriving DecidableEq

/-- text_diff.rs:134-138. -/
structure PathAndLines where
  path : Path
  lines : List Str
deriving DecidableEq

/-- byte_diff.rs:139-144. -/
structure PathAndBytes where
  path : Path
  compressed : Bool
  bytes : List UInt8
deriving DecidableEq

/-- diff.rs:12-20. -/
inductive Diff where
  | textChange (d : TextChangeDiff)
  | textAdd (d : PathAndLines)
  | textRemove (d : PathAndLines)
  | byteChange (d : ByteChangeDiff)
  | byteAdd (d : PathAndBytes)
  | byteRemove (d : PathAndBytes)
deriving DecidableEq

/-- text_diff.rs:163-165 `PathAndLines::change_path`. -/
def PathAndLines.changePath (d : PathAndLines) (path : Path) : PathAndLines := { d with path := path }
/-- byte_diff.rs:164-166 `PathAndBytes::change_path`. -/
def PathAndBytes.changePath (d : PathAndBytes) (path : Path) : PathAndBytes := { d with path := path }

/-- text_diff.rs:167-172 `PathAndLines::write_into`. -/
def PathAndLines.writeInto (d : PathAndLines) : WM Unit := writeStrs d.lines
/-- byte_diff.rs:168-170 `PathAndBytes::write_into`. -/
def PathAndBytes.writeInto (d : PathAndBytes) : WM Unit := writeAll d.bytes

/-! ## Serialisation -/

namespace Json

/-- A path. -/
def ofPath (path : Path) : Json :=
  match decodeUtf8 path with
  | some s => .str s
  | none => .invalid

abbrev kStart : Str := ['s', 't', 'a', 'r', 't']
abbrev kItems : Str := ['i', 't', 'e', 'm', 's']
abbrev kContextLengths : Str := ['c', 'o', 'n', 't', 'e', 'x', 't', '_', 'l', 'e', 'n', 'g', 't', 'h', 's']
abbrev kBefore : Str := ['b', 'e', 'f', 'o', 'r', 'e']
abbrev kAfter : Str := ['a', 'f', 't', 'e', 'r']
abbrev kBeforePath : Str := ['b', 'e', 'f', 'o', 'r', 'e', '_', 'p', 'a', 't', 'h']
abbrev kAfterPath : Str := ['a', 'f', 't', 'e', 'r', '_', 'p', 'a', 't', 'h']
abbrev kCompressed : Str := ['c', 'o', 'm', 'p', 'r', 'e', 's', 's', 'e', 'd']
abbrev kClumps : Str := ['c', 'l', 'u', 'm', 'p', 's']
abbrev kPath : Str := ['p', 'a', 't', 'h']
abbrev kLines : Str := ['l', 'i', 'n', 'e', 's']
abbrev kBytes : Str := ['b', 'y', 't', 'e', 's']
abbrev kTextChange : Str := ['T', 'e', 'x', 't', 'C', 'h', 'a', 'n', 'g', 'e']
abbrev kTextAdd : Str := ['T', 'e', 'x', 't', 'A', 'd', 'd']
abbrev kTextRemove : Str := ['T', 'e', 'x', 't', 'R', 'e', 'm', 'o', 'v', 'e']
abbrev kByteChange : Str := ['B', 'y', 't', 'e', 'C', 'h', 'a', 'n', 'g', 'e']
abbrev kByteAdd : Str := ['B', 'y', 't', 'e', 'A', 'd', 'd']
abbrev kByteRemove : Str := ['B', 'y', 't', 'e', 'R', 'e', 'm', 'o', 'v', 'e']

/-- snippet.rs:8-12. -/
def ofSnippet {T : Type} (item : T → Json) (s : Snippet T) : Json :=
  .obj [(kStart, .nat s.start), (kItems, .arr (s.items.map item))]

/-- text_diff.rs:14-19 and byte_diff.rs:16-21. -/
def ofClump {T : Type} (item : T → Json) (c : DiffClump T) : Json :=
  .obj [(kContextLengths, .arr [.nat c.contextLengths.1, .nat c.contextLengths.2]),
    (kBefore, ofSnippet item c.before), (kAfter, ofSnippet item c.after)]

/-- A byte. -/
def ofByte (b : UInt8) : Json := .nat b.toNat

/-- diff.rs:12-20 with the structs of text_diff.rs and byte_diff.rs. -/
def ofDiff : Diff → Json
  | .textChange d => .obj [(kTextChange, .obj [(kBeforePath, ofPath d.beforePath), (kAfterPath, ofPath d.afterPath),
      (kClumps, .arr (d.clumps.map (ofClump .str)))])]
  | .textAdd d => .obj [(kTextAdd, .obj [(kPath, ofPath d.path), (kLines, .arr (d.lines.map .str))])]
  | .textRemove d => .obj [(kTextRemove, .obj [(kPath, ofPath d.path), (kLines, .arr (d.lines.map .str))])]
  | .byteChange d => .obj [(kByteChange, .obj [(kBeforePath, ofPath d.beforePath), (kAfterPath, ofPath d.afterPath),
      (kCompressed, .bool d.compressed), (kClumps, .arr (d.clumps.map (ofClump ofByte)))])]
  | .byteAdd d => .obj [(kByteAdd, .obj [(kPath, ofPath d.path), (kCompressed, .bool d.compressed),
      (kBytes, .arr (d.bytes.map ofByte))])]
  | .byteRemove d => .obj [(kByteRemove, .obj [(kPath, ofPath d.path), (kCompressed, .bool d.compressed),
      (kBytes, .arr (d.bytes.map ofByte))])]

/-! ## Deserialisation -/

/-- The values of the fields of a struct: from an object, every field exactly once, others ignored; from an array, exactly
the fields in order. -/
def fields (names : List Str) : Json → Option (List Json)
  | .obj fs => names.mapM fun name =>
    match fs.filter fun f => f.1 = name with
    | [f] => some f.2
    | _ => none
  | .arr xs => if xs.length = names.length then some xs else none
  | _ => none

/-- An unsigned number below a limit. -/
def toNatBelow (limit : Nat) : Json → Option Nat
  | .nat n => if n < limit then some n else none
  | _ => none

def toBool : Json → Option Bool
  | .bool b => some b
  | _ => none

def toStr : Json → Option Str
  | .str s => some s
  | _ => none

def toByte (j : Json) : Option UInt8 := (toNatBelow 256 j).map UInt8.ofNat

def toPath (j : Json) : Option Path := (toStr j).map Str.bytes

def toList {T : Type} (item : Json → Option T) : Json → Option (List T)
  | .arr xs => xs.mapM item
  | _ => none

/-- A `(u8, u8)`. -/
def toPair : Json → Option (Nat × Nat)
  | .arr [a, b] => do
    let a ← toNatBelow 256 a
    let b ← toNatBelow 256 b
    return (a, b)
  | _ => none

def toSnippet {T : Type} (item : Json → Option T) (j : Json) : Option (Snippet T) := do
  match ← fields [kStart, kItems] j with
  | [start, items] =>
    let start ← toNatBelow wordSize start
    let items ← toList item items
    return ⟨start, items⟩
  | _ => none

def toClump {T : Type} (item : Json → Option T) (j : Json) : Option (DiffClump T) := do
  match ← fields [kContextLengths, kBefore, kAfter] j with
  | [ctx, before, after] =>
    let ctx ← toPair ctx
    let before ← toSnippet item before
    let after ← toSnippet item after
    return ⟨ctx, before, after⟩
  | _ => none

def toTextChangeDiff (j : Json) : Option TextChangeDiff := do
  match ← fields [kBeforePath, kAfterPath, kClumps] j with
  | [before, after, clumps] =>
    let before ← toPath before
    let after ← toPath after
    let clumps ← toList (toClump toStr) clumps
    return ⟨before, after, clumps⟩
  | _ => none

def toByteChangeDiff (j : Json) : Option ByteChangeDiff := do
  match ← fields [kBeforePath, kAfterPath, kCompressed, kClumps] j with
  | [before, after, compressed, clumps] =>
    let before ← toPath before
    let after ← toPath after
    let compressed ← toBool compressed
    let clumps ← toList (toClump toByte) clumps
    return ⟨before, after, compressed, clumps⟩
  | _ => none

def toPathAndLines (j : Json) : Option PathAndLines := do
  match ← fields [kPath, kLines] j with
  | [path, lines] =>
    let path ← toPath path
    let lines ← toList toStr lines
    return ⟨path, lines⟩
  | _ => none

def toPathAndBytes (j : Json) : Option PathAndBytes := do
  match ← fields [kPath, kCompressed, kBytes] j with
  | [path, compressed, bytes] =>
    let path ← toPath path
    let compressed ← toBool compressed
    let bytes ← toList toByte bytes
    return ⟨path, compressed, bytes⟩
  | _ => none

/-- The enum of diff.rs:12-20. -/
def toDiff : Json → Option Diff
  | .obj [(k, v)] =>
    if k = kTextChange then (toTextChangeDiff v).map .textChange
    else if k = kTextAdd then (toPathAndLines v).map .textAdd
    else if k = kTextRemove then (toPathAndLines v).map .textRemove
    else if k = kByteChange then (toByteChangeDiff v).map .byteChange
    else if k = kByteAdd then (toPathAndBytes v).map .byteAdd
    else if k = kByteRemove then (toPathAndBytes v).map .byteRemove
    else none
  | _ => none

end Json

/-- diff.rs:64-66 `Diff::to_writer`. -/
def Diff.toWriter (d : Diff) : WM Unit := Json.write 0 (Json.ofDiff d)

/-- diff.rs:60-62 `Diff::from_reader`; every error (io, syntax, type) is `Err`. -/
def Diff.fromReader (r : Reader) : Outcome Diff :=
  if r.fails then .ioErr
  else match decodeUtf8 r.data with
    | none => .ioErr
    | some s =>
      match Json.readDocument s with
      | none => .ioErr
      | some j =>
        match Json.toDiff j with
        | none => .ioErr
        | some d => .ok d

/-! ## The two kinds of changes on their own -/

namespace Json

/-- text_diff.rs:85-90. -/
def ofTextChangeDiff (d : TextChangeDiff) : Json :=
  .obj [(kBeforePath, ofPath d.beforePath), (kAfterPath, ofPath d.afterPath), (kClumps, .arr (d.clumps.map (ofClump .str)))]

/-- byte_diff.rs:88-94. -/
def ofByteChangeDiff (d : ByteChangeDiff) : Json :=
  .obj [(kBeforePath, ofPath d.beforePath), (kAfterPath, ofPath d.afterPath), (kCompressed, .bool d.compressed),
    (kClumps, .arr (d.clumps.map (ofClump ofByte)))]

/-- `serde_json::from_reader` for a type whose values are made from documents by `convert`. -/
def fromReader {T : Type} (convert : Json → Option T) (r : Reader) : Outcome T :=
  if r.fails then .ioErr
  else match ((decodeUtf8 r.data).bind readDocument).bind convert with
    | some x => .ok x
    | none => .ioErr

end Json

/-- text_diff.rs:120-122 `TextChangeDiff::to_writer`. -/
def TextChangeDiff.toWriter (d : TextChangeDiff) : WM Unit := Json.write 0 (Json.ofTextChangeDiff d)
/-- text_diff.rs:108-110 `TextChangeDiff::from_reader`. -/
def TextChangeDiff.fromReader (r : Reader) : Outcome TextChangeDiff := Json.fromReader Json.toTextChangeDiff r
/-- byte_diff.rs:125-127 `ByteChangeDiff::to_writer`. -/
def ByteChangeDiff.toWriter (d : ByteChangeDiff) : WM Unit := Json.write 0 (Json.ofByteChangeDiff d)
/-- byte_diff.rs:113-115 `ByteChangeDiff::from_reader`. -/
def ByteChangeDiff.fromReader (r : Reader) : Outcome ByteChangeDiff := Json.fromReader Json.toByteChangeDiff r

end PwDiff
