import Verif.Model.Regex
import Verif.Model.ApplyText

/-! # `pw_cub_diff_lib/src/unified_diff.rs` (with `lib.rs` and `text_diff.rs` of the same crate) -/

namespace PwDiff

/-! ## Errors -/

/-- pw_cub_diff_lib/src/text_diff.rs:8-13 `enum DiffParseError` (the `ParseIntError` inside the first is dropped). -/
inductive DiffParseError where
  | parseNumberError (line : Nat)
  | unexpectedEndOfInput
  | unexpectedEndClump (line : Nat)
  | syntaxError (line : Nat)
deriving DecidableEq, Repr

/-- text_diff.rs:24 `DiffParseResult`. -/
abbrev ParseResult (α : Type) := Except DiffParseError α

deriving instance DecidableEq for Except

/-! ## Header patterns -/

section patterns

open Rx

variable (nd : Digits)

/-- lib.rs:6 `TIMESTAMP_RE_STR`; its group has number 5 in the patterns below. -/
def timestampRx : Rx := seqs [rep 4 nd.is, chr '-', rep 2 nd.is, chr '-', rep 2 nd.is, chr ' ', rep 2 nd.is, chr ':',
  rep 2 nd.is, chr ':', rep 2 nd.is, opt (grp 5 (seq (chr '.') (rep 9 nd.is))), chr ' ',
  cls (fun c => c == '-' || c == '+'), rep 4 nd.is]

/-- `[A-Z]`. -/
def upper (c : Char) : Bool := 'A' ≤ c && c ≤ 'Z'
/-- `[a-z]`. -/
def lower (c : Char) : Bool := 'a' ≤ c && c ≤ 'z'

/-- lib.rs:7-8 `ALT_TIMESTAMP_RE_STR`. -/
def altTimestampRx : Rx := seqs [cls upper, rep 2 lower, chr ' ', cls upper, rep 2 lower, chr ' ', rep 2 nd.is, chr ' ',
  rep 2 nd.is, chr ':', rep 2 nd.is, chr ':', rep 2 nd.is, chr ' ', rep 4 nd.is, chr ' ',
  cls (fun c => c == '-' || c == '+'), rep 4 nd.is]

/-- lib.rs:9 `PATH_RE_STR`; its groups have numbers 2 and 3 in the patterns below. -/
def pathRx : Rx :=
  alt (seqs [chr '"', grp 2 (plus fun c => c != '"'), chr '"']) (grp 3 (plus fun c => !isWhite c))

/-- unified_diff.rs:20-24 `BEFORE_PATH_REGEX` and `AFTER_PATH_REGEX`, for the given first characters. -/
def filePathRx (marker : Str) : Rx := seqs [lit marker, grp 1 pathRx, plus isWhite,
  opt (grp 4 (alt (timestampRx nd) (altTimestampRx nd))), grp 6 (star dot), opt (grp 7 (chr '\n'))]

/-- unified_diff.rs:26-27 `CLUMP_HEADER_REGEX`. -/
def clumpHeaderRx : Rx := seqs [lit ['@', '@'], plus isWhite, chr '-', grp 1 (plus nd.is),
  opt (grp 2 (seq (chr ',') (grp 3 (plus nd.is)))), plus isWhite, chr '+', grp 4 (plus nd.is),
  opt (grp 5 (seq (chr ',') (grp 6 (plus nd.is)))), plus isWhite, lit ['@', '@'], star isWhite, grp 7 (star dot),
  opt (grp 8 (chr '\n'))]

end patterns

/-! ## File headers -/

/-- text_diff.rs:39-43 `struct PathAndTimestamp`. -/
structure PathAndTimestamp where
  filePath : Str
  timeStamp : Option Str
deriving DecidableEq, Repr

/-- unified_diff.rs:30-41 `path_and_time_stamp_from_captures`. -/
def pathAndTimestampFromCaptures (caps : Rx.Caps) : Outcome PathAndTimestamp :=
  match Rx.Caps.get caps 2 with
  | some path => .ok ⟨path, Rx.Caps.get caps 4⟩
  | none =>
    match Rx.Caps.get caps 3 with
    | some path => .ok ⟨path, Rx.Caps.get caps 4⟩
    | none => .panic

/-- The common part of `before_path_and_time_stamp` and `after_path_and_time_stamp`. -/
def pathAndTimestamp (nd : Digits) (marker line : Str) : Outcome (Option PathAndTimestamp) :=
  match Rx.captures (filePathRx nd marker) line with
  | some caps => do
    let r ← pathAndTimestampFromCaptures caps
    return some r
  | none => .ok none

/-- unified_diff.rs:43-46 `before_path_and_time_stamp`. -/
def beforePathAndTimestamp (nd : Digits) (line : Str) : Outcome (Option PathAndTimestamp) :=
  pathAndTimestamp nd ['-', '-', '-', ' '] line

/-- unified_diff.rs:48-51 `after_path_and_time_stamp`. -/
def afterPathAndTimestamp (nd : Digits) (line : Str) : Outcome (Option PathAndTimestamp) :=
  pathAndTimestamp nd ['+', '+', '+', ' '] line

/-! ## Clump headers -/

/-- text_diff.rs:45-49 `struct StartAndLength`. -/
structure StartAndLength where
  start : Nat
  length : Nat
deriving DecidableEq, Repr

/-- The optional sign that `usize::from_str` accepts. -/
def stripPlus : Str → Str
  | [] => []
  | c :: cs => if c = '+' then cs else c :: cs

/-- `usize::from_str` (`None`: any `ParseIntError`): an optional `+`, then at least one ASCII digit and nothing else, with
a value that fits. -/
def parseUsize (s : Str) : Option Nat :=
  if stripPlus s ≠ [] ∧ (stripPlus s).all Char.isDigit = true then
    if Nat.ofDigitChars 10 (stripPlus s) 0 < wordSize then some (Nat.ofDigitChars 10 (stripPlus s) 0) else none
  else none

/-- `usize::from_str(..).map_err(|e| ParseNumberError(e, line_number))`. -/
def parseNumber (s : Str) (lineNumber : Nat) : ParseResult Nat :=
  match parseUsize s with
  | some n => .ok n
  | none => .error (.parseNumberError lineNumber)

/-- unified_diff.rs:53-70 `start_and_length_from_captures`. -/
def startAndLengthFromCaptures (caps : Rx.Caps) (lineNum length lineNumber : Nat) : ParseResult StartAndLength :=
  match Rx.Caps.get caps lineNum with
  | none => .error (.syntaxError lineNumber)
  | some m => do
    let start ← parseNumber m lineNumber
    match Rx.Caps.get caps length with
    | some m => do
      let length ← parseNumber m lineNumber
      return ⟨start, length⟩
    | none => return ⟨start, 1⟩

/-- unified_diff.rs:72-76 `struct StartsAndLengths`. -/
structure StartsAndLengths where
  before : StartAndLength
  after : StartAndLength
deriving DecidableEq, Repr

/-- `{}` of a `usize`. -/
def decimal (n : Nat) : Str := Nat.toDigits 10 n

/-- unified_diff.rs:78-104 `Display for StartsAndLengths`. -/
def StartsAndLengths.display (s : StartsAndLengths) : Str :=
  if s.before.length = 1 then
    if s.after.length = 1 then
      "@@ -".toList ++ decimal s.before.start ++ " +".toList ++ decimal s.after.start ++ " @@".toList
    else
      "@@ -".toList ++ decimal s.before.start ++ " +".toList ++ decimal s.after.start ++ ",".toList ++
        decimal s.after.length ++ " @@".toList
  else if s.after.length = 1 then
    "@@ -".toList ++ decimal s.before.start ++ ",".toList ++ decimal s.before.length ++ " +".toList ++
      decimal s.after.start ++ " @@".toList
  else
    "@@ -".toList ++ decimal s.before.start ++ ",".toList ++ decimal s.before.length ++ " +".toList ++
      decimal s.after.start ++ ",".toList ++ decimal s.after.length ++ " @@".toList

/-- unified_diff.rs:106-118 `starts_and_lengths`. -/
def startsAndLengths (nd : Digits) (line : Str) (lineNumber : Nat) : ParseResult (Option StartsAndLengths) :=
  match Rx.captures (clumpHeaderRx nd) line with
  | some caps => do
    let before ← startAndLengthFromCaptures caps 1 3 lineNumber
    let after ← startAndLengthFromCaptures caps 4 6 lineNumber
    return some ⟨before, after⟩
  | none => .ok none

/-! ## Parsing a clump -/

/-- unified_diff.rs:120-126 `struct UnifiedDiffClump`. -/
structure UnifiedDiffClump where
  startsAndLengths : StartsAndLengths
  beforeLines : List Str
  afterLines : List Str
  contextLengths : Nat × Nat
  linesConsumed : Nat
deriving DecidableEq, Repr

/-- `a + 1` on `u8`. -/
def u8incr (p : Profile) (a : Nat) : Outcome Nat :=
  if a + 1 < 256 then .ok (a + 1)
  else match p with
    | .debug => .panic
    | .release => .ok ((a + 1) % 256)

/-- The values of `last_line_type` (`"X"`, `"-"`, `"+"`). -/
inductive LastLine where
  | none
  | minus
  | plus
deriving DecidableEq, Repr

/-- The local variables of the loop unified_diff.rs:139-173. -/
structure HunkState where
  startContext : Nat := 0
  endContext : Nat := 0
  atTheFront : Bool := true
  beforeLines : List Str := []
  afterLines : List Str := []
  index : Nat := 0
  last : LastLine := .none
deriving DecidableEq, Repr

/-- unified_diff.rs:146-173: the loop that collects the lines; the result is the final state and the lines not read. -/
def hunkLoop (p : Profile) (startIndex : Nat) (sal : StartsAndLengths) :
    List Str → HunkState → Outcome (ParseResult (HunkState × List Str))
  | lines, st =>
    if st.beforeLines.length < sal.before.length ∨ st.afterLines.length < sal.after.length then
      match lines with
      | [] => .ok (.error .unexpectedEndOfInput)
      | line :: rest =>
        match line.head? with
        | some '-' => hunkLoop p startIndex sal rest { st with
            beforeLines := st.beforeLines ++ [line], endContext := 0, atTheFront := false, last := .minus,
            index := st.index + 1 }
        | some '+' => hunkLoop p startIndex sal rest { st with
            afterLines := st.afterLines ++ [line], endContext := 0, atTheFront := false, last := .plus,
            index := st.index + 1 }
        | some ' ' =>
          if st.atTheFront then do
            let n ← u8incr p st.startContext
            hunkLoop p startIndex sal rest { st with
              beforeLines := st.beforeLines ++ [line], afterLines := st.afterLines ++ [line], startContext := n,
              last := .minus, index := st.index + 1 }
          else do
            let n ← u8incr p st.endContext
            hunkLoop p startIndex sal rest { st with
              beforeLines := st.beforeLines ++ [line], afterLines := st.afterLines ++ [line], endContext := n,
              last := .minus, index := st.index + 1 }
        | _ => .ok (.error (.unexpectedEndClump (startIndex + st.index + 1)))
    else .ok (.ok (st, lines))

/-- `str::trim_end`. -/
def trimEnd (s : Str) : Str := (s.reverse.dropWhile isWhite).reverse

/-- `let line = lines.pop().unwrap(); lines.push(line.trim_end().to_string())`. -/
def trimLast (lines : List Str) : Outcome (List Str) :=
  match lines.getLast? with
  | some line => .ok (lines.dropLast ++ [trimEnd line])
  | none => .panic

/-- unified_diff.rs:174-191: a line that starts with `\` after the clump. -/
def hunkEnd (st : HunkState) (rest : List Str) : Outcome (List Str × List Str × Nat) :=
  match rest.head? with
  | some line =>
    if line.head? = some '\\' then
      match st.last with
      | .minus => do
        let b ← trimLast st.beforeLines
        return (b, st.afterLines, st.index + 2)
      | .plus => do
        let a ← trimLast st.afterLines
        return (st.beforeLines, a, st.index + 2)
      | .none => do
        let b ← trimLast st.beforeLines
        let a ← trimLast st.afterLines
        return (b, a, st.index + 2)
    else return (st.beforeLines, st.afterLines, st.index + 1)
  | none => return (st.beforeLines, st.afterLines, st.index + 1)

/-- unified_diff.rs:129-199 `UnifiedDiffClump::get_from_at`. -/
def getFromAt (p : Profile) (nd : Digits) (lines : List Str) (startIndex : Nat) :
    Outcome (ParseResult (Option UnifiedDiffClump)) := do
  let iter ← subsequence lines (rangeFrom lines startIndex)
  match iter with
  | [] => return .ok none
  | line :: iter =>
    match startsAndLengths nd line startIndex with
    | .error e => return .error e
    | .ok none => return .ok none
    | .ok (some sal) => do
      let r ← hunkLoop p startIndex sal iter {}
      match r with
      | .error e => return .error e
      | .ok (st, rest) => do
        let (b, a, consumed) ← hunkEnd st rest
        return .ok (some ⟨sal, b, a, (st.startContext, st.endContext), consumed⟩)

/-! ## A parsed clump as a clump to apply -/

/-- unified_diff.rs:202-222 `ChangeBasics for UnifiedDiffClump`. -/
instance : ChangeBasics UnifiedDiffClump where
  beforeStart c reverse := if reverse then c.startsAndLengths.after.start else c.startsAndLengths.before.start
  beforeEnd p c reverse :=
    uadd p (if reverse then c.startsAndLengths.after.start else c.startsAndLengths.before.start)
      (if reverse then c.startsAndLengths.after.length else c.startsAndLengths.before.length)
  beforeLength _ c reverse :=
    .ok (if reverse then c.startsAndLengths.after.length else c.startsAndLengths.before.length)

/-- unified_diff.rs:224-244 `TextClumpBasics for UnifiedDiffClump`. -/
instance : TextClump UnifiedDiffClump Str where
  contextLengths c := c.contextLengths
  beforeLines _ c range reverse :=
    match range with
    | some r => slice (if reverse then c.afterLines else c.beforeLines) r.start r.fin
    | none => .ok (if reverse then c.afterLines else c.beforeLines)

/-! ## Generating unified clumps -/

/-- unified_diff.rs:246-249 `struct UnifiedClumpText`. -/
structure UnifiedClumpText where
  header : Str
  lines : List Str
deriving DecidableEq, Repr

/-- `for line in seq.subsequence(range) { lines.push(format!("{marker}{line}")); }`. -/
def marked (marker : Char) (seq : List Str) (r : Range) : Outcome (List Str) := do
  let ls ← subsequence seq r
  return ls.map (marker :: ·)

/-- unified_diff.rs:282-315: the lines of one change. -/
def changeLines (before after : List Str) : Change → Outcome (List Str)
  | .noChange c => marked ' ' before c.beforeRange
  | .delete r _ => marked '-' before r
  | .insert _ r => marked '+' after r
  | .replace r s =>
    if r.len < s.len then do
      let x ← marked '-' before r
      let y ← marked '+' after s
      return x ++ y
    else do
      let y ← marked '+' after s
      let x ← marked '-' before r
      return y ++ x

/-- unified_diff.rs:279-316: the loop over the changes of a clump. -/
def changesLines (before after : List Str) : List Change → Outcome (List Str)
  | [] => .ok []
  | c :: cs => do
    let x ← changeLines before after c
    let y ← changesLines before after cs
    return x ++ y

/-- unified_diff.rs:260-326: what `UnifiedClumpIter::next` makes of one clump. -/
def unifiedClumpText (p : Profile) (before after : List Str) (cc : ChangeClump) : Outcome UnifiedClumpText := do
  let beforeLength ← usub p cc.ends.1 cc.starts.1
  let afterLength ← usub p cc.ends.2 cc.starts.2
  let header := StartsAndLengths.display ⟨⟨cc.starts.1, beforeLength⟩, ⟨cc.starts.2, afterLength⟩⟩
  let lines ← changesLines before after cc.changes
  match lines.getLast? with
  | none => .panic
  | some l =>
    if l.getLast? = some '\n' then return ⟨header, lines⟩
    else return ⟨header, lines ++ [['\n', '\\', '\n']]⟩

/-- `.collect()` of a `UnifiedClumpIter` over the given clumps. -/
def unifiedClumpTexts (p : Profile) (before after : List Str) : List ChangeClump → Outcome (List UnifiedClumpText)
  | [] => .ok []
  | cc :: ccs => do
    let t ← unifiedClumpText p before after cc
    let ts ← unifiedClumpTexts p before after ccs
    return t :: ts

/-- unified_diff.rs:251-327: `UnifiedClumpIter { before, after, iter: changes.change_clumps(context) }` collected. -/
def unifiedClumps (p : Profile) (before after : List Str) (context : Nat) : Outcome (List UnifiedClumpText) := do
  let changes ← changesOf p before after
  let ccs ← changeClumps context changes
  unifiedClumpTexts p before after ccs

end PwDiff
