import Verif.Model.Logging

/-!
# The command lines

The two `Cli` structs (pw_diff/src/main.rs:12-28, pw_patch/src/main.rs:16-23) and what clap 4.5 makes of a command line with
them: `Cli::parse`, which returns, or prints the help and exits with status 0, or prints an error and exits with status 2.

Modelled is clap's documented behaviour for these declarations (no settings are changed in them): `-v` counts, at most to 255;
`--reverse` and `--context` may be given only once; short options can be put together, and the value of an option follows as the
next argument, after `=`, or directly after a short option; `--` ends the options; `--help` and `-h` are added; names of options
may not be abbreviated.  Simplifications: which error is reported and its text; the text of the help is a parameter; a value is
checked when it is met and not when the next argument has been looked at (both give status 2, and before a later `--help`).
-/

namespace PwDiff

/-- An argument of a program: any bytes. -/
abbrev Arg := List UInt8

/-- The options of the two programs. -/
inductive Flag where
  | verbose
  | context
  | reverse
  | help
deriving DecidableEq, Repr

/-- Which of the options `context` and `reverse` a program has, and how many paths it wants. -/
structure Cli where
  context : Bool
  reverse : Bool
  paths : Nat
deriving DecidableEq, Repr

/-- pw_diff/src/main.rs:12-28. -/
def Cli.diff : Cli := ⟨true, false, 2⟩

/-- pw_patch/src/main.rs:16-23. -/
def Cli.patch : Cli := ⟨false, true, 1⟩

/-- What a command line has said so far; at the end, the fields of the `Cli` struct. -/
structure Given where
  verbose : Nat := 0
  context : Option Nat := none
  reverse : Bool := false
  paths : List Path := []
deriving DecidableEq, Repr

/-- What `Cli::parse` does. -/
inductive Parsed where
  | run (g : Given)
  | help
  | error
deriving DecidableEq, Repr

/-- What one argument leads to: the parser goes on, perhaps with the value of `context` as the next argument. -/
inductive Next where
  | go (g : Given)
  | value (g : Given)
  | help
  | error
deriving DecidableEq, Repr

namespace Cli

/-- The names of the long options, without the two dashes. -/
def verboseName : Arg := Str.bytes ['v', 'e', 'r', 'b', 'o', 's', 'e']
def contextName : Arg := Str.bytes ['c', 'o', 'n', 't', 'e', 'x', 't']
def reverseName : Arg := Str.bytes ['r', 'e', 'v', 'e', 'r', 's', 'e']
def helpName : Arg := Str.bytes ['h', 'e', 'l', 'p']

/-- `short, long` of the fields, by the name of the long option. -/
def long (cli : Cli) (name : Arg) : Option Flag :=
  if name = verboseName then some .verbose
  else if name = contextName ∧ cli.context then some .context
  else if name = reverseName ∧ cli.reverse then some .reverse
  else if name = helpName then some .help
  else none

/-- `short, long` of the fields, by the letter `v`, `c`, `r` or `h`. -/
def short (cli : Cli) (letter : UInt8) : Option Flag :=
  if letter = 118 then some .verbose
  else if letter = 99 ∧ cli.context then some .context
  else if letter = 114 ∧ cli.reverse then some .reverse
  else if letter = 104 then some .help
  else none

/-- The value of decimal digits, if these are all. -/
def decimal : Nat → List UInt8 → Option Nat
  | n, [] => some n
  | n, d :: ds => if 48 ≤ d ∧ d ≤ 57 then decimal (10 * n + (d.toNat - 48)) ds else none

/-- The value parser of a `u8`: `i64::from_str` and the range 0 to 255. -/
def u8Value (v : Arg) : Option Nat :=
  let (negative, digits) := match v with
    | 43 :: ds => (false, ds)
    | 45 :: ds => (true, ds)
    | ds => (false, ds)
  if digits.isEmpty then none
  else match decimal 0 digits with
    | some n => if n ≤ 255 ∧ (negative → n = 0) then some n else none
    | none => none

/-- The value of `context`, which may be given once (`ArgAction::Set`). -/
def setContext (v : Arg) (g : Given) : Next :=
  match g.context, u8Value v with
  | none, some n => .go { g with context := some n }
  | _, _ => .error

/-- An option without a value (`ArgAction::Count`, which does not go beyond 255; `ArgAction::SetTrue`; `ArgAction::Help`). -/
def setFlag (f : Flag) (g : Given) : Next :=
  match f with
  | .verbose => .go { g with verbose := min 255 (g.verbose + 1) }
  | .context => .value g
  | .reverse => if g.reverse then .error else .go { g with reverse := true }
  | .help => .help

/-- An argument with two dashes: `name` or `name=value`. -/
def longArg (cli : Cli) (body : Arg) (g : Given) : Next :=
  match cli.long (body.takeWhile (· ≠ 61)), body.dropWhile (· ≠ 61) with
  | none, _ => .error
  | some f, [] => setFlag f g
  | some .context, _ :: v => setContext v g
  | some _, _ :: _ => .error

/-- What follows the letter `c` in its argument: nothing, `=value` or the value. -/
def shortValue (rest : List UInt8) (g : Given) : Next :=
  match rest with
  | [] => .value g
  | 61 :: v => setContext v g
  | v => setContext v g

/-- An argument with one dash: letters, of which `c` takes the rest as its value. -/
def shortArg (cli : Cli) : List UInt8 → Given → Next
  | [], g => .go g
  | letter :: rest, g =>
    match cli.short letter with
    | none => .error
    | some .context => shortValue rest g
    | some f =>
      match setFlag f g with
      | .go g' => shortArg cli rest g'
      | x => x

/-- A path (`PathBufValueParser`, which refuses the empty path). -/
def pathArg (cli : Cli) (path : Arg) (g : Given) : Next :=
  if path.isEmpty ∨ cli.paths ≤ g.paths.length then .error else .go { g with paths := g.paths ++ [path] }

/-- The end of the arguments: `required = true`. -/
def finish (cli : Cli) (g : Given) : Parsed := if g.paths.length = cli.paths then .run g else .error

/-- The arguments after `--`. -/
def parseRest (cli : Cli) : List Arg → Given → Parsed
  | [], g => cli.finish g
  | path :: rest, g =>
    match cli.pathArg path g with
    | .go g' => parseRest cli rest g'
    | _ => .error

/-- One argument other than `--`.  `awaited`: it has to be the value of `context`. -/
def arg (cli : Cli) (awaited : Bool) (a : Arg) (g : Given) : Next :=
  match a with
  | 45 :: 45 :: body => if awaited then .error else cli.longArg body g
  | 45 :: letter :: letters => if awaited then .error else cli.shortArg (letter :: letters) g
  | a => if awaited then setContext a g else cli.pathArg a g

/-- `Cli::parse`. -/
def parse (cli : Cli) (awaited : Bool) : List Arg → Given → Parsed
  | [], g => if awaited then .error else cli.finish g
  | a :: rest, g =>
    if a = [45, 45] then if awaited then .error else cli.parseRest rest g
    else match cli.arg awaited a g with
      | .go g' => parse cli false rest g'
      | .value g' => parse cli true rest g'
      | .help => .help
      | .error => .error

end Cli

open Sys

/-- Printing the help, whether this fails or not. -/
def printHelp (helpText : List UInt8) : Sys Unit := do
  let _ ← writeStdout (writeAll helpText)
  return ()

/-- pw_diff/src/main.rs:30-54: how the program ends, the state it leaves, and the messages it shows. -/
def pwDiffMain (p : Profile) (helpText : List UInt8) (args : List Arg) (w : World) : Ended × World × List Record :=
  match Cli.diff.parse false args {} with
  | .error => (.exited 2, w, [])
  | .help => (((printHelp helpText).run w).1, ((printHelp helpText).run w).2, [])
  | .run g =>
    match g.paths with
    | [before, after] =>
      let (ended, w', log) := (pwDiffL p before after (g.context.getD 2)).run w
      (ended, w', log.filter (shown .pwDiff g.verbose))
    | _ => (.exited 2, w, [])

/-- pw_patch/src/main.rs:25-245: how the program ends, the state it leaves, and the messages it shows. -/
def pwPatchMain (p : Profile) (helpText : List UInt8) (temp : Path) (args : List Arg) (w : World) : Ended × World × List Record :=
  match Cli.patch.parse false args {} with
  | .error => (.exited 2, w, [])
  | .help => (((printHelp helpText).run w).1, ((printHelp helpText).run w).2, [])
  | .run g =>
    match g.paths with
    | [patch] =>
      let (ended, w', log) := (pwPatchL p temp patch g.reverse).run w
      (ended, w', log.filter (shown .pwPatch g.verbose))
    | _ => (.exited 2, w, [])

end PwDiff
