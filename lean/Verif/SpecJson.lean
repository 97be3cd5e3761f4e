import Verif.Model.Diff

/-! # Which texts are JSON documents (RFC 8259), and which documents are diffs

Stated as a grammar, without reference to the reader. -/

namespace PwDiff.Json

/-- White space. -/
def Blank (s : Str) : Prop := ∀ c ∈ s, c = ' ' ∨ c = '\n' ∨ c = '\t' ∨ c = '\r'

/-- `c` is a hexadecimal digit of value `n`. -/
def IsHex (c : Char) (n : Nat) : Prop :=
  "0123456789abcdef".toList[n]? = some c ∨ "0123456789ABCDEF".toList[n]? = some c

/-- `s` are four hexadecimal digits of value `n`. -/
def IsHex4 (s : Str) (n : Nat) : Prop :=
  ∃ a b c d i j k l, s = [a, b, c, d] ∧ IsHex a i ∧ IsHex b j ∧ IsHex c k ∧ IsHex d l ∧ n = ((i * 16 + j) * 16 + k) * 16 + l

/-- The ways to write a character inside a string. -/
inductive Spells : Char → Str → Prop
  | plain {c} : c ≠ '"' → c ≠ '\\' → 32 ≤ c.toNat → Spells c [c]
  | quote : Spells '"' ['\\', '"']
  | backslash : Spells '\\' ['\\', '\\']
  | slash : Spells '/' ['\\', '/']
  | backspace {c} : c.toNat = 8 → Spells c ['\\', 'b']
  | formFeed {c} : c.toNat = 12 → Spells c ['\\', 'f']
  | newline : Spells '\n' ['\\', 'n']
  | return : Spells '\r' ['\\', 'r']
  | tab : Spells '\t' ['\\', 't']
  | hex {c s} : IsHex4 s c.toNat → Spells c ('\\' :: 'u' :: s)
  /-- a surrogate pair -/
  | pair {c s t m n} : IsHex4 s m → IsHex4 t n → 0xD800 ≤ m → m ≤ 0xDBFF → 0xDC00 ≤ n → n ≤ 0xDFFF →
      c.toNat = 0x10000 + (m - 0xD800) * 0x400 + (n - 0xDC00) → Spells c ('\\' :: 'u' :: s ++ '\\' :: 'u' :: t)

/-- The text of a string, without the quotes. -/
inductive IsString : Str → Str → Prop
  | nil : IsString [] []
  | cons {c s t u} : Spells c t → IsString s u → IsString (c :: s) (t ++ u)

/-- At least one digit. -/
def Digits1 (s : Str) : Prop := s ≠ [] ∧ ∀ c ∈ s, c.isDigit = true

/-- An integer without sign and without superfluous zeros. -/
def IsInt (s : Str) : Prop := Digits1 s ∧ (s.head? = some '0' → s = ['0'])

/-- A fraction, or nothing. -/
def IsFraction (s : Str) : Prop := s = [] ∨ ∃ ds, Digits1 ds ∧ s = '.' :: ds

/-- An exponent, or nothing. -/
def IsExponent (s : Str) : Prop :=
  s = [] ∨ ∃ e sign ds, (e = 'e' ∨ e = 'E') ∧ (sign = [] ∨ sign = ['+'] ∨ sign = ['-']) ∧ Digits1 ds ∧ s = e :: sign ++ ds

/-- The value of a sequence of digits. -/
def decimal (s : Str) : Nat := s.foldl (fun n c => 10 * n + (c.toNat - 48)) 0

/-- Numbers: those that a `u64` can hold, and others. -/
inductive IsNumber : Json → Str → Prop
  | nat {s} : IsInt s → decimal s < 2 ^ 64 → IsNumber (.nat (decimal s)) s
  | other {sign s f e} : (sign = [] ∨ sign = ['-']) → IsInt s → IsFraction f → IsExponent e →
      (sign ≠ [] ∨ f ≠ [] ∨ e ≠ [] ∨ 2 ^ 64 ≤ decimal s) → IsNumber .number (sign ++ s ++ f ++ e)

mutual
/-- The text of a value. -/
inductive IsValue : Json → Str → Prop
  | null : IsValue .null ['n', 'u', 'l', 'l']
  | true : IsValue (.bool true) ['t', 'r', 'u', 'e']
  | false : IsValue (.bool false) ['f', 'a', 'l', 's', 'e']
  | number {j s} : IsNumber j s → IsValue j s
  | str {s t} : IsString s t → IsValue (.str s) ('"' :: (t ++ ['"']))
  | noItems {w} : Blank w → IsValue (.arr []) ('[' :: (w ++ [']']))
  | arr {xs t} : IsItems xs t → IsValue (.arr xs) ('[' :: (t ++ [']']))
  | noFields {w} : Blank w → IsValue (.obj []) ('{' :: (w ++ ['}']))
  | obj {xs t} : IsFields xs t → IsValue (.obj xs) ('{' :: (t ++ ['}']))

/-- One or more values separated by commas. -/
inductive IsItems : List Json → Str → Prop
  | one {x t w w'} : Blank w → IsValue x t → Blank w' → IsItems [x] (w ++ (t ++ w'))
  | more {x xs t u w w'} : Blank w → IsValue x t → Blank w' → IsItems xs u → IsItems (x :: xs) (w ++ (t ++ (w' ++ ',' :: u)))

/-- A key and a value. -/
inductive IsField : Str × Json → Str → Prop
  | mk {k kt x t w w' w''} : Blank w → IsString k kt → Blank w' → Blank w'' → IsValue x t →
      IsField (k, x) (w ++ ('"' :: (kt ++ '"' :: (w' ++ ':' :: (w'' ++ t)))))

/-- One or more fields separated by commas. -/
inductive IsFields : List (Str × Json) → Str → Prop
  | one {f t w} : IsField f t → Blank w → IsFields [f] (t ++ w)
  | more {f fs t u w} : IsField f t → Blank w → IsFields fs u → IsFields (f :: fs) (t ++ (w ++ ',' :: u))
end

/-- A document: a value between white space. -/
def IsDocument (j : Json) (s : Str) : Prop := ∃ w t w', s = w ++ (t ++ w') ∧ Blank w ∧ IsValue j t ∧ Blank w'

/-! ## Diffs -/

/-- Exactly one of the fields is called `name`, and `v` is its value. -/
def Once (name : Str) (v : Json) (fs : List (Str × Json)) : Prop :=
  ∃ pre post, fs = pre ++ (name, v) :: post ∧ ∀ f ∈ pre ++ post, f.1 ≠ name

/-- A struct: an object with each of the fields once, in any order, possibly with others; or an array of the values in
order. -/
def IsStruct (fields : List (Str × Json)) (j : Json) : Prop :=
  (∃ fs, j = .obj fs ∧ ∀ f ∈ fields, Once f.1 f.2 fs) ∨ j = .arr (fields.map Prod.snd)

/-- An array whose items stand for those of a list. -/
def IsList {T : Type} (item : T → Json → Prop) (l : List T) (j : Json) : Prop :=
  ∃ xs : List Json, j = .arr xs ∧ xs.length = l.length ∧ ∀ (i : Nat) x y, l[i]? = some x → xs[i]? = some y → item x y

/-- A line. -/
def IsLine (s : Str) (j : Json) : Prop := j = .str s
/-- A byte. -/
def IsByte (b : UInt8) (j : Json) : Prop := j = .nat b.toNat
/-- A path. -/
def IsPath (path : Path) (j : Json) : Prop := ∃ s : Str, path = s.bytes ∧ j = .str s
/-- A number of type `usize`. -/
def IsSize (n : Nat) (j : Json) : Prop := n < 2 ^ 64 ∧ j = .nat n

/-- A snippet. -/
def IsSnippet {T : Type} (item : T → Json → Prop) (s : Snippet T) (j : Json) : Prop :=
  ∃ a b, IsStruct [("start".toList, a), ("items".toList, b)] j ∧ IsSize s.start a ∧ IsList item s.items b

/-- A clump. -/
def IsClump {T : Type} (item : T → Json → Prop) (c : DiffClump T) (j : Json) : Prop :=
  ∃ a b x y, IsStruct [("context_lengths".toList, .arr [.nat x, .nat y]), ("before".toList, a), ("after".toList, b)] j ∧
    x < 256 ∧ y < 256 ∧ c.contextLengths = (x, y) ∧ IsSnippet item c.before a ∧ IsSnippet item c.after b

/-- A diff: an object with one field, which tells the kind. -/
inductive StandsFor : Diff → Json → Prop
  | textChange {d j a b c} : IsStruct [("before_path".toList, a), ("after_path".toList, b), ("clumps".toList, c)] j →
      IsPath d.beforePath a → IsPath d.afterPath b → IsList (IsClump IsLine) d.clumps c →
      StandsFor (.textChange d) (.obj [("TextChange".toList, j)])
  | textAdd {d j a b} : IsStruct [("path".toList, a), ("lines".toList, b)] j → IsPath d.path a → IsList IsLine d.lines b →
      StandsFor (.textAdd d) (.obj [("TextAdd".toList, j)])
  | textRemove {d j a b} : IsStruct [("path".toList, a), ("lines".toList, b)] j → IsPath d.path a → IsList IsLine d.lines b →
      StandsFor (.textRemove d) (.obj [("TextRemove".toList, j)])
  | byteChange {d j a b c} : IsStruct [("before_path".toList, a), ("after_path".toList, b),
        ("compressed".toList, .bool d.compressed), ("clumps".toList, c)] j →
      IsPath d.beforePath a → IsPath d.afterPath b → IsList (IsClump IsByte) d.clumps c →
      StandsFor (.byteChange d) (.obj [("ByteChange".toList, j)])
  | byteAdd {d j a b} : IsStruct [("path".toList, a), ("compressed".toList, .bool d.compressed), ("bytes".toList, b)] j →
      IsPath d.path a → IsList IsByte d.bytes b → StandsFor (.byteAdd d) (.obj [("ByteAdd".toList, j)])
  | byteRemove {d j a b} : IsStruct [("path".toList, a), ("compressed".toList, .bool d.compressed), ("bytes".toList, b)] j →
      IsPath d.path a → IsList IsByte d.bytes b → StandsFor (.byteRemove d) (.obj [("ByteRemove".toList, j)])

/-- A change of a text file on its own, as `TextChangeDiff::to_writer` writes it. -/
def IsTextChange (d : TextChangeDiff) (j : Json) : Prop := StandsFor (.textChange d) (.obj [("TextChange".toList, j)])
/-- A change of a binary file on its own. -/
def IsByteChange (d : ByteChangeDiff) (j : Json) : Prop := StandsFor (.byteChange d) (.obj [("ByteChange".toList, j)])

end PwDiff.Json
