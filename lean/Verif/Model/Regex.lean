import Verif.Model.Basic

/-! # The part of the `regex` crate that the header patterns of `pw_cub_diff_lib` use

Leftmost-first matching with captures, as a backtracking matcher: alternatives are tried from left to right, `?`, `*` and
`+` are greedy.  Every repeated expression of the modelled patterns is a single character class, so `star` repeats a
class.  All patterns begin with `^` and end with `$` (not multi-line), so a match is a match of the whole line. -/

namespace PwDiff

/-- Unicode `White_Space`: `\s` of the regex crate and `char::is_whitespace` of std. -/
def isWhite (c : Char) : Bool :=
  let n := c.toNat
  (9 ≤ n && n ≤ 13) || n == 0x20 || n == 0x85 || n == 0xA0 || n == 0x1680 || (0x2000 ≤ n && n ≤ 0x200A) ||
    n == 0x2028 || n == 0x2029 || n == 0x202F || n == 0x205F || n == 0x3000

/-- `\d`: the decimal digits (`Nd`) of a version of Unicode.  Which characters beyond ASCII are digits is left open;
they are not white space. -/
structure Digits where
  is : Char → Bool
  ascii : ∀ c : Char, c.toNat < 128 → is c = c.isDigit
  notWhite : ∀ c, is c = true → isWhite c = false

/-- Regular expressions with numbered groups. -/
inductive Rx where
  | eps
  | cls (p : Char → Bool)
  | seq (a b : Rx)
  | alt (a b : Rx)
  | opt (a : Rx)
  | star (p : Char → Bool)
  | grp (n : Nat) (a : Rx)

namespace Rx

/-- The groups that took part in the match, latest first, with the text they matched. -/
abbrev Caps := List (Nat × Str)

/-- Greedy repetition of a class. -/
def starRun {β : Type} (p : Char → Bool) (caps : Caps) (k : Str → Caps → Option β) : Str → Option β
  | [] => k [] caps
  | c :: cs => if p c then (starRun p caps k cs).or (k (c :: cs) caps) else k (c :: cs) caps

/-- Matches a prefix of `s` and goes on with `k`; on failure of `k` the next possibility is tried. -/
def run {β : Type} : Rx → Str → Caps → (Str → Caps → Option β) → Option β
  | eps, s, caps, k => k s caps
  | cls p, s, caps, k =>
    match s with
    | c :: cs => if p c then k cs caps else none
    | [] => none
  | seq a b, s, caps, k => run a s caps fun s' caps' => run b s' caps' k
  | alt a b, s, caps, k => (run a s caps k).or (run b s caps k)
  | opt a, s, caps, k => (run a s caps k).or (k s caps)
  | star p, s, caps, k => starRun p caps k s
  | grp n a, s, caps, k => run a s caps fun s' caps' => k s' ((n, s.take (s.length - s'.length)) :: caps')

/-- `Regex::captures` for a pattern of the form `^…$`. -/
def captures (r : Rx) (line : Str) : Option Caps :=
  run r line [] fun s caps => if s.isEmpty then some caps else none

/-- `Captures::get(n)`. -/
def Caps.get (caps : Caps) (n : Nat) : Option Str := caps.lookup n

/-! Abbreviations for pattern syntax. -/

/-- A literal character. -/
def chr (c : Char) : Rx := cls (· == c)
/-- A literal string. -/
def lit : Str → Rx
  | [] => eps
  | c :: cs => seq (chr c) (lit cs)
/-- `p+`. -/
def plus (p : Char → Bool) : Rx := seq (cls p) (star p)
/-- `p{n}`. -/
def rep : Nat → (Char → Bool) → Rx
  | 0, _ => eps
  | n + 1, p => seq (cls p) (rep n p)
/-- `.`: any character but a newline. -/
def dot (c : Char) : Bool := c != '\n'

/-- Concatenation of several patterns. -/
def seqs : List Rx → Rx
  | [] => eps
  | r :: rs => seq r (seqs rs)

end Rx

end PwDiff
