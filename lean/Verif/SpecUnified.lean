import Verif.Model.Unified
import Verif.Spec

/-! # The words the properties of `pw_cub_diff_lib` are stated in -/

namespace PwDiff

/-- At least one character, all of them white space. -/
def Spaces (w : Str) : Prop := w ≠ [] ∧ ∀ c ∈ w, isWhite c = true

/-- At least one character, all of them decimal digits. -/
def Number (nd : Digits) (d : Str) : Prop := d ≠ [] ∧ ∀ c ∈ d, nd.is c = true

/-- `,` and a number, or nothing. -/
def comma : Option Str → Str
  | none => []
  | some e => ',' :: e

/-- What may stand at the end of a header line: anything without newline, white space before it (which may contain
newlines), a newline after it. -/
def Rest (tail : Str) : Prop :=
  ∃ w x e, tail = w ++ (x ++ e) ∧ (∀ c ∈ w, isWhite c = true) ∧ '\n' ∉ x ∧ (e = [] ∨ e = ['\n'])

/-- A header line of a unified diff, `@@ -d1[,e1] +d2[,e2] @@…`, with the numbers as written. -/
def HeaderLine (nd : Digits) (d1 : Str) (e1 : Option Str) (d2 : Str) (e2 : Option Str) (line : Str) : Prop :=
  ∃ w1 w2 w3 tail,
    line = ['@', '@'] ++ (w1 ++ ('-' :: (d1 ++ (comma e1 ++ (w2 ++ ('+' :: (d2 ++ (comma e2 ++ (w3 ++ (['@', '@'] ++ tail)))))))))) ∧
    Spaces w1 ∧ Spaces w2 ∧ Spaces w3 ∧ Number nd d1 ∧ Number nd d2 ∧
    (∀ e, e1 = some e → Number nd e) ∧ (∀ e, e2 = some e → Number nd e) ∧ Rest tail

/-- `d` is a decimal numeral (ASCII digits, leading zeros allowed) with value `n`. -/
def Numeral (d : Str) (n : Nat) : Prop := d ≠ [] ∧ (∀ c ∈ d, c.isDigit = true) ∧ Nat.ofDigitChars 10 d 0 = n

/-- The written start `d` and optional written length `e` mean `s`: an omitted length is 1, and the numbers fit. -/
def SideMeans (d : Str) (e : Option Str) (s : StartAndLength) : Prop :=
  Numeral d s.start ∧ s.start < 2 ^ 64 ∧ s.length < 2 ^ 64 ∧
    ((e = none ∧ s.length = 1) ∨ ∃ x, e = some x ∧ Numeral x s.length)

/-- `n` decimal digits. -/
def DigitsN (nd : Digits) (n : Nat) (d : Str) : Prop := d.length = n ∧ ∀ c ∈ d, nd.is c = true

/-- A time zone, `+hhmm` or `-hhmm`. -/
def Zone (nd : Digits) (z : Str) : Prop := ∃ s d, z = s :: d ∧ (s = '-' ∨ s = '+') ∧ DigitsN nd 4 d

/-- A time of day `hh:mm:ss`. -/
def Clock (nd : Digits) (t : Str) : Prop :=
  ∃ h m s, t = h ++ (':' :: (m ++ (':' :: s))) ∧ DigitsN nd 2 h ∧ DigitsN nd 2 m ∧ DigitsN nd 2 s

/-- The name of a day or month: a capital and two small letters. -/
def ShortName (t : Str) : Prop := ∃ a b c, t = [a, b, c] ∧ ('A' ≤ a ∧ a ≤ 'Z') ∧ ('a' ≤ b ∧ b ≤ 'z') ∧ ('a' ≤ c ∧ c ≤ 'z')

/-- `yyyy-mm-dd hh:mm:ss[.nnnnnnnnn] +hhmm`. -/
def IsoStamp (nd : Digits) (t : Str) : Prop :=
  ∃ y m d c f z, t = y ++ ('-' :: (m ++ ('-' :: (d ++ (' ' :: (c ++ (f ++ (' ' :: z)))))))) ∧
    DigitsN nd 4 y ∧ DigitsN nd 2 m ∧ DigitsN nd 2 d ∧ Clock nd c ∧ (f = [] ∨ ∃ n, f = '.' :: n ∧ DigitsN nd 9 n) ∧ Zone nd z

/-- `Thu Feb 21 hh:mm:ss yyyy +hhmm`. -/
def AltStamp (nd : Digits) (t : Str) : Prop :=
  ∃ a b d c y z, t = a ++ (' ' :: (b ++ (' ' :: (d ++ (' ' :: (c ++ (' ' :: (y ++ (' ' :: z))))))))) ∧
    ShortName a ∧ ShortName b ∧ DigitsN nd 2 d ∧ Clock nd c ∧ DigitsN nd 4 y ∧ Zone nd z

/-- A time stamp in one of the two formats. -/
def Stamp (nd : Digits) (t : Str) : Prop := IsoStamp nd t ∨ AltStamp nd t

/-- How a path is written in a file header: in quotes, or as it is if it has no white space and does not begin with a
quote. -/
def PathWritten (path written : Str) : Prop :=
  (path ≠ [] ∧ '"' ∉ path ∧ written = '"' :: (path ++ ['"'])) ∨
  (path ≠ [] ∧ (∀ c ∈ path, isWhite c = false) ∧ path.head? ≠ some '"' ∧ written = path)

/-! ## Hunks -/

/-- A context line of a hunk. -/
def isContext (l : Str) : Bool := l.head? == some ' '
/-- A line that belongs to the old file. -/
def isOld (l : Str) : Bool := l.head? == some '-' || isContext l
/-- A line that belongs to the new file. -/
def isNew (l : Str) : Bool := l.head? == some '+' || isContext l
/-- A line of a hunk. -/
def isBody (l : Str) : Bool := isOld l || isNew l

/-- The lines contain as many old and new lines as announced. -/
def Enough (sal : StartsAndLengths) (body : List Str) : Prop :=
  sal.before.length ≤ (body.filter isOld).length ∧ sal.after.length ≤ (body.filter isNew).length

instance (sal : StartsAndLengths) (body : List Str) : Decidable (Enough sal body) := inferInstanceAs (Decidable (_ ∧ _))

/-- The number of context lines at the end. -/
def endRun (body : List Str) : Nat := (body.reverse.takeWhile isContext).length

/-- No 256 consecutive context lines. -/
def ShortRuns (body : List Str) : Prop := ∀ pre post, body = pre ++ post → endRun pre < 256

/-- The number of context lines before the first change. -/
def leadContext (body : List Str) : Nat := (body.takeWhile isContext).length

/-- The number of context lines after the last change (none if there is no change). -/
def trailContext (body : List Str) : Nat := if body.all isContext then 0 else endRun body

/-! ## What parsing a hunk means -/

/-- The line has the form of a hunk header. -/
def IsHeader (nd : Digits) (l : Str) : Prop := ∃ d1 e1 d2 e2, HeaderLine nd d1 e1 d2 e2 l

/-- The line is a hunk header with these starts and lengths. -/
def Announces (nd : Digits) (l : Str) (sal : StartsAndLengths) : Prop :=
  ∃ d1 e1 d2 e2, HeaderLine nd d1 e1 d2 e2 l ∧ SideMeans d1 e1 sal.before ∧ SideMeans d2 e2 sal.after

/-- The next line, if any, does not begin with a backslash. -/
def NoMark (rest : List Str) : Prop := ∀ l r, rest = l :: r → l.head? ≠ some '\\'

/-- A string without the white space at its end. -/
def stripEnd : Str → Str
  | [] => []
  | c :: s => if (c :: s).all isWhite then [] else c :: stripEnd s

/-- The lines, with white space at the end of the last one removed. -/
def trimmed (ls : List Str) : List Str := ls.dropLast ++ (ls.getLast?.map stripEnd).toList

/-- The lines are those of a hunk: enough of them, no more than needed, without 256 consecutive context lines in debug
builds. -/
structure IsHunk (p : Profile) (sal : StartsAndLengths) (body : List Str) : Prop where
  lines : ∀ l ∈ body, isBody l = true
  enough : Enough sal body
  least : body = [] ∨ ¬ Enough sal body.dropLast
  runs : p = .debug → ShortRuns body

/-- The lines are the beginning of a hunk that needs more lines. -/
structure IsPart (p : Profile) (sal : StartsAndLengths) (body : List Str) : Prop where
  lines : ∀ l ∈ body, isBody l = true
  short : ¬ Enough sal body
  runs : p = .debug → ShortRuns body

/-- The result of parsing the hunk that begins at line number `start`. -/
inductive Parses (p : Profile) (nd : Digits) : List Str → Nat → Outcome (ParseResult (Option UnifiedDiffClump)) → Prop where
  /-- there is no such line: panic -/
  | beyond {lines start} (h : lines.length < start) : Parses p nd lines start .panic
  /-- the end of the input -/
  | atEnd {lines} : Parses p nd lines lines.length (.ok (.ok none))
  /-- not a header -/
  | noHeader {pre l ls} (h : ¬ IsHeader nd l) : Parses p nd (pre ++ l :: ls) pre.length (.ok (.ok none))
  /-- a header with a number that is too large or written with digits that are not ASCII -/
  | badNumber {pre l ls} (h : IsHeader nd l) (hn : ∀ sal, ¬ Announces nd l sal) :
      Parses p nd (pre ++ l :: ls) pre.length (.ok (.error (.parseNumberError pre.length)))
  /-- the input ends before the hunk is complete -/
  | endOfInput {pre l sal ls} (h : Announces nd l sal) (hp : IsPart p sal ls) :
      Parses p nd (pre ++ l :: ls) pre.length (.ok (.error .unexpectedEndOfInput))
  /-- a line that does not belong to a hunk before it is complete -/
  | badLine {pre l sal body x rest} (h : Announces nd l sal) (hp : IsPart p sal body) (hx : isBody x = false) :
      Parses p nd (pre ++ l :: (body ++ x :: rest)) pre.length
        (.ok (.error (.unexpectedEndClump (pre.length + body.length + 1))))
  /-- the 256th consecutive context line, in debug builds: panic -/
  | overflow {pre l sal body x rest} (h : Announces nd l sal) (hp : IsPart p sal body) (hd : p = .debug)
      (hx : isContext x = true) (hr : endRun body = 255) : Parses p nd (pre ++ l :: (body ++ x :: rest)) pre.length .panic
  /-- a backslash line after an empty hunk: panic -/
  | markAlone {pre l sal x rest} (h : Announces nd l sal) (hs : sal.before.length = 0 ∧ sal.after.length = 0)
      (hx : x.head? = some '\\') : Parses p nd (pre ++ l :: x :: rest) pre.length .panic
  /-- a hunk -/
  | hunk {pre l sal body rest} (h : Announces nd l sal) (hb : IsHunk p sal body) (hm : NoMark rest) :
      Parses p nd (pre ++ l :: (body ++ rest)) pre.length (.ok (.ok (some
        ⟨sal, body.filter isOld, body.filter isNew, (leadContext body % 256, trailContext body % 256), body.length + 1⟩)))
  /-- a hunk with a backslash line after a `+` line -/
  | hunkNew {pre l sal body x rest y} (h : Announces nd l sal) (hb : IsHunk p sal body) (hx : x.head? = some '\\')
      (hy : body.getLast? = some y) (hyn : y.head? = some '+') :
      Parses p nd (pre ++ l :: (body ++ x :: rest)) pre.length (.ok (.ok (some
        ⟨sal, body.filter isOld, trimmed (body.filter isNew), (leadContext body % 256, trailContext body % 256),
          body.length + 2⟩)))
  /-- a hunk with a backslash line after a `-` line or a context line -/
  | hunkOld {pre l sal body x rest y} (h : Announces nd l sal) (hb : IsHunk p sal body) (hx : x.head? = some '\\')
      (hy : body.getLast? = some y) (hyn : y.head? ≠ some '+') :
      Parses p nd (pre ++ l :: (body ++ x :: rest)) pre.length (.ok (.ok (some
        ⟨sal, trimmed (body.filter isOld), body.filter isNew, (leadContext body % 256, trailContext body % 256),
          body.length + 2⟩)))

/-! ## What a generated hunk says -/

/-- A removed line. -/
def isRemoved (l : Str) : Bool := l.head? == some '-'
/-- An added line. -/
def isAdded (l : Str) : Bool := l.head? == some '+'

/-- The lines without their markers. -/
def unmark (ls : List Str) : List Str := ls.map (·.drop 1)

/-- The lines of a hunk describe the changes of a clump: the old lines are the old range of the clump, the new lines are
what the changes make of it, and exactly the lines of the real changes are marked as removed and added. -/
structure Describes (before after : List Str) (cc : ChangeClump) (body : List Str) : Prop where
  lines : ∀ l ∈ body, isBody l = true
  old : unmark (body.filter isOld) = cut before cc.ranges.1.start cc.ranges.1.fin
  new : unmark (body.filter isNew) = replay before after cc.changes
  removed : unmark (body.filter isRemoved) = (reals cc.changes).flatMap fun c => cut before c.old.start c.old.fin
  added : unmark (body.filter isAdded) = (reals cc.changes).flatMap fun c => cut after c.new.start c.new.fin

/-- The header of a clump's hunk: the ranges as (zero based) start and length. -/
def ChangeClump.header (cc : ChangeClump) : StartsAndLengths :=
  ⟨⟨cc.ranges.1.start, cc.ranges.1.fin - cc.ranges.1.start⟩, ⟨cc.ranges.2.start, cc.ranges.2.fin - cc.ranges.2.start⟩⟩

/-- A line with its newline, the only one in it. -/
def WholeLine (l : Str) : Prop := ∃ x, l = x ++ ['\n'] ∧ '\n' ∉ x

/-- A text in which every line is ended. -/
def EndsWell (s : Str) : Prop := s = [] ∨ ∃ x, s = x ++ ['\n']

/-! ## Header lines, exactly -/

/-- What follows the path in a header line: white space, then anything that does not begin with white space and has no newline,
then a newline or nothing. -/
def AfterPath (tail x : Str) : Prop :=
  ∃ w e, tail = w ++ (x ++ e) ∧ Spaces w ∧ '\n' ∉ x ∧ (∀ c cs, x = c :: cs → isWhite c = false) ∧ (e = [] ∨ e = ['\n'])

/-- The line begins with the marker and a path in quotes; `x` is what stands after the white space that follows. -/
def QuotedPath (marker line path x : Str) : Prop :=
  path ≠ [] ∧ '"' ∉ path ∧ ∃ tail, line = marker ++ ('"' :: (path ++ ('"' :: tail))) ∧ AfterPath tail x

/-- The line begins with the marker and a path as it is, without white space. -/
def PlainPath (marker line path x : Str) : Prop :=
  path ≠ [] ∧ (∀ c ∈ path, isWhite c = false) ∧ ∃ tail, line = marker ++ (path ++ tail) ∧ AfterPath tail x

/-- The time stamp at the beginning of `x`, if there is one. -/
def StampOf (nd : Digits) (x : Str) : Option Str → Prop
  | some t => Stamp nd t ∧ ∃ y, x = t ++ y
  | none => ∀ t y, x = t ++ y → ¬ Stamp nd t

/-- A header line, its path and its time stamp: a path in quotes is preferred. -/
def FileHeader (nd : Digits) (marker line : Str) (r : PathAndTimestamp) : Prop :=
  ∃ x, StampOf nd x r.timeStamp ∧
    (QuotedPath marker line r.filePath x ∨ PlainPath marker line r.filePath x ∧ ∀ path y, ¬ QuotedPath marker line path y)

end PwDiff
