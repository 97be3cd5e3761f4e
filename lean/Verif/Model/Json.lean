import Verif.Model.Sequence

/-!
# JSON as `serde_json` writes and reads it

`Diff::to_writer` (diff.rs:64-66) is `serde_json::to_writer_pretty`, `Diff::from_reader` (diff.rs:60-62) is
`serde_json::from_reader`.  `serde_json` is a dependency, not part of the repository; this file models the documented
behaviour of the parts used: the pretty printer (two spaces of indentation, `": "` between key and value), the escaping of
strings, and the parser of JSON documents.

Simplifications: the document is decoded as UTF-8 first (`serde_json` checks only strings, everything else outside ASCII
is a syntax error anyway); it is parsed to a tree first (`serde_json` parses directly into the target type); of numbers that
are not integers below 2^64 only the syntax is kept (no field of a diff can hold them).  The limit on nested arrays and
objects does not apply to the values of unknown fields, and elsewhere it is far above what a diff can have, so there is none
here.  Inside the values of unknown fields `serde_json` is more lenient about strings than this model: it accepts text that
is not UTF-8 and unpaired surrogates there.
-/

namespace PwDiff

/-- A JSON document.  `number` is a number that does not fit `u64` (negative, fraction, exponent, too large); `invalid`
is never parsed: it stands for a value whose serialisation fails (a path that is not UTF-8). -/
inductive Json where
  | null
  | bool (b : Bool)
  | nat (n : Nat)
  | number
  | str (s : Str)
  | arr (items : List Json)
  | obj (fields : List (Str × Json))
  | invalid

namespace Json

/-! ## Writing -/

/-- The lower case hexadecimal digit of `n < 16`. -/
def hexDigit (n : Nat) : Char := Nat.digitChar n

/-- `serde_json`'s escaping of a character of a string. -/
def escape (c : Char) : Str :=
  if c = '"' then ['\\', '"']
  else if c = '\\' then ['\\', '\\']
  else if c.toNat = 8 then ['\\', 'b']
  else if c.toNat = 9 then ['\\', 't']
  else if c.toNat = 10 then ['\\', 'n']
  else if c.toNat = 12 then ['\\', 'f']
  else if c.toNat = 13 then ['\\', 'r']
  else if c.toNat < 32 then ['\\', 'u', '0', '0', hexDigit (c.toNat / 16), hexDigit (c.toNat % 16)]
  else [c]

/-- A quoted string. -/
def quote (s : Str) : Str := '"' :: s.flatMap escape ++ ['"']

/-- A new line and the indentation of the given level. -/
def newline (level : Nat) : Str := '\n' :: List.replicate (2 * level) ' '

/-- Writing some text. -/
def put (s : Str) : WM Unit := writeAll s.bytes

mutual
/-- `to_writer_pretty` at an indentation level (`PrettyFormatter`). -/
def write (level : Nat) : Json → WM Unit
  | .null => put ['n', 'u', 'l', 'l']
  | .bool true => put ['t', 'r', 'u', 'e']
  | .bool false => put ['f', 'a', 'l', 's', 'e']
  | .nat n => put (Nat.toDigits 10 n)
  | .number => WM.lift .ioErr
  | .str s => put (quote s)
  | .arr [] => put ['[', ']']
  | .arr (x :: xs) => do
    put ('[' :: newline (level + 1))
    write (level + 1) x
    writeItems level xs
  | .obj [] => put ['{', '}']
  | .obj ((k, x) :: xs) => do
    put ('{' :: newline (level + 1))
    put (quote k)
    put [':', ' ']
    write (level + 1) x
    writeFields level xs
  | .invalid => WM.lift .ioErr

/-- The rest of an array after an item. -/
def writeItems (level : Nat) : List Json → WM Unit
  | [] => put (newline level ++ [']'])
  | x :: xs => do
    put (',' :: newline (level + 1))
    write (level + 1) x
    writeItems level xs

/-- The rest of an object after a field. -/
def writeFields (level : Nat) : List (Str × Json) → WM Unit
  | [] => put (newline level ++ ['}'])
  | (k, x) :: xs => do
    put (',' :: newline (level + 1))
    put (quote k)
    put [':', ' ']
    write (level + 1) x
    writeFields level xs
end

/-! ## Reading -/

/-- JSON's white space. -/
def isSpace (c : Char) : Bool := c = ' ' || c = '\n' || c = '\t' || c = '\r'

def skipSpace : Str → Str
  | [] => []
  | c :: cs => if isSpace c then skipSpace cs else c :: cs

/-- The value of a hexadecimal digit of either case. -/
def hexValue (c : Char) : Option Nat :=
  if '0' ≤ c ∧ c ≤ '9' then some (c.toNat - 48)
  else if 'a' ≤ c ∧ c ≤ 'f' then some (c.toNat - 87)
  else if 'A' ≤ c ∧ c ≤ 'F' then some (c.toNat - 55)
  else none

/-- Four hexadecimal digits. -/
def hex4 (a b c d : Char) : Option Nat := do
  let a ← hexValue a
  let b ← hexValue b
  let c ← hexValue c
  let d ← hexValue d
  return ((a * 16 + b) * 16 + c) * 16 + d

/-- A code point that is not a surrogate. -/
def scalar (n : Nat) : Option Char := if h : n.isValidChar then some (Char.ofNatAux n h) else none

/-- The single character escapes. -/
def unescape (c : Char) : Option Char :=
  if c = '"' then some '"'
  else if c = '\\' then some '\\'
  else if c = '/' then some '/'
  else if c = 'b' then some (Char.ofNat 8)
  else if c = 'f' then some (Char.ofNat 12)
  else if c = 'n' then some '\n'
  else if c = 'r' then some '\r'
  else if c = 't' then some '\t'
  else none

/-- Adding a character to what the rest of a string gives. -/
def consChar (c : Option Char) (r : Option (Str × Str)) : Option (Str × Str) := do
  let c ← c
  let (s, rest) ← r
  return (c :: s, rest)

/-- The rest of a string after the opening quote: its characters, and what follows the closing quote. -/
def readString : Str → Option (Str × Str)
  | [] => none
  | '\\' :: 'u' :: a :: b :: c :: d :: cs =>
    match hex4 a b c d with
    | none => none
    | some n =>
      if 0xD800 ≤ n ∧ n ≤ 0xDBFF then
        match cs with
        | '\\' :: 'u' :: e :: f :: g :: h :: cs' =>
          match hex4 e f g h with
          | none => none
          | some m =>
            if 0xDC00 ≤ m ∧ m ≤ 0xDFFF then
              consChar (scalar (0x10000 + (n - 0xD800) * 0x400 + (m - 0xDC00))) (readString cs')
            else none
        | _ => none
      else consChar (scalar n) (readString cs)
  | '\\' :: c :: cs => consChar (unescape c) (readString cs)
  | c :: cs =>
    if c = '"' then some ([], cs)
    else if c.toNat < 32 then none
    else consChar (some c) (readString cs)

/-- The digits at the beginning. -/
def spanDigits : Str → Str × Str
  | [] => ([], [])
  | c :: cs =>
    if c.isDigit then
      let (d, r) := spanDigits cs
      (c :: d, r)
    else ([], c :: cs)

/-- At least one digit is skipped. -/
def needDigits (s : Str) : Option Str :=
  match spanDigits s with
  | ([], _) => none
  | (_, rest) => some rest

/-- The fraction of a number, if there is one: whether there was one, and the rest. -/
def readFraction : Str → Option (Bool × Str)
  | '.' :: cs => (needDigits cs).map fun r => (true, r)
  | cs => some (false, cs)

/-- The exponent of a number. -/
def readExponent : Str → Option (Bool × Str)
  | c :: cs =>
    if c = 'e' ∨ c = 'E' then
      match cs with
      | '+' :: ds => (needDigits ds).map fun r => (true, r)
      | '-' :: ds => (needDigits ds).map fun r => (true, r)
      | ds => (needDigits ds).map fun r => (true, r)
    else some (false, c :: cs)
  | [] => some (false, [])

/-- A number without sign. -/
def readNumber (s : Str) : Option (Json × Str) :=
  match spanDigits s with
  | ([], _) => none
  | (d :: ds, rest) =>
    if d = '0' ∧ ds ≠ [] then none
    else do
      let (f, rest) ← readFraction rest
      let (e, rest) ← readExponent rest
      let n := Nat.ofDigitChars 10 (d :: ds) 0
      return (if f || e then .number else if n < wordSize then .nat n else .number, rest)

mutual
/-- A value (white space before it has been skipped).  `fuel` bounds the number of
steps and is never used up if it is at least the length of the input. -/
def readValue (fuel : Nat) (s : Str) : Option (Json × Str) :=
  match fuel with
  | 0 => none
  | fuel + 1 =>
    match s with
    | 'n' :: 'u' :: 'l' :: 'l' :: cs => some (.null, cs)
    | 't' :: 'r' :: 'u' :: 'e' :: cs => some (.bool true, cs)
    | 'f' :: 'a' :: 'l' :: 's' :: 'e' :: cs => some (.bool false, cs)
    | '"' :: cs => (readString cs).map fun (s, r) => (.str s, r)
    | '-' :: cs => (readNumber cs).map fun (_, r) => (.number, r)
    | '[' :: cs =>
      match skipSpace cs with
      | ']' :: cs => some (.arr [], cs)
      | cs => do
        let (x, r) ← readValue fuel cs
        let (xs, r) ← readItems fuel (skipSpace r)
        return (.arr (x :: xs), r)
    | '{' :: cs =>
      match skipSpace cs with
      | '}' :: cs => some (.obj [], cs)
      | cs => do
        let (x, r) ← readField fuel cs
        let (xs, r) ← readFields fuel (skipSpace r)
        return (.obj (x :: xs), r)
    | cs => readNumber cs
termination_by structural fuel

/-- The rest of an array after an item and white space. -/
def readItems (fuel : Nat) (s : Str) : Option (List Json × Str) :=
  match fuel with
  | 0 => none
  | fuel + 1 =>
    match s with
    | ']' :: cs => some ([], cs)
    | ',' :: cs => do
      let (x, r) ← readValue fuel (skipSpace cs)
      let (xs, r) ← readItems fuel (skipSpace r)
      return (x :: xs, r)
    | _ => none
termination_by structural fuel

/-- A key, a colon and a value. -/
def readField (fuel : Nat) (s : Str) : Option ((Str × Json) × Str) :=
  match fuel with
  | 0 => none
  | fuel + 1 =>
    match s with
    | '"' :: cs => do
      let (k, r) ← readString cs
      match skipSpace r with
      | ':' :: r =>
        let (x, r) ← readValue fuel (skipSpace r)
        return ((k, x), r)
      | _ => none
    | _ => none
termination_by structural fuel

/-- The rest of an object after a field and white space. -/
def readFields (fuel : Nat) (s : Str) : Option (List (Str × Json) × Str) :=
  match fuel with
  | 0 => none
  | fuel + 1 =>
    match s with
    | '}' :: cs => some ([], cs)
    | ',' :: cs => do
      let (x, r) ← readField fuel (skipSpace cs)
      let (xs, r) ← readFields fuel (skipSpace r)
      return (x :: xs, r)
    | _ => none
termination_by structural fuel

end

/-- A whole document. -/
def readDocument (s : Str) : Option Json := do
  let (x, r) ← readValue (s.length + 1) (skipSpace s)
  if (skipSpace r).isEmpty then return x else none

end Json

end PwDiff
