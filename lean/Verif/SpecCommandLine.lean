import Verif.Model.CommandLine

/-! # The language of command lines -/

namespace PwDiff

/-- What is said on a command line. -/
inductive Said where
  | verbose
  | context (n : Nat)
  | reverse
  | path (p : Path)
deriving DecidableEq, Repr

/-- An argument that is taken for an option: a dash and more. -/
def LooksLikeOption (a : Arg) : Prop := ∃ b rest, a = 45 :: b :: rest

/-- The number written with decimal digits. -/
def numberOf (digits : List UInt8) : Nat := digits.foldl (fun n d => 10 * n + (d.toNat - 48)) 0

/-- `v` is a number from 0 to 255 in decimal digits, perhaps with leading zeros and a sign. -/
def Writes (v : Arg) (n : Nat) : Prop :=
  ∃ sign digits, v = sign ++ digits ∧ (sign = [] ∨ sign = [43] ∨ sign = [45] ∧ n = 0) ∧ digits ≠ [] ∧
    (∀ d ∈ digits, 48 ≤ d ∧ d ≤ 57) ∧ n = numberOf digits ∧ n ≤ 255

/-- Letters of options without values. -/
inductive Letters (cli : Cli) : List UInt8 → List Said → Prop
  | nil : Letters cli [] []
  | verbose {ls is} (h : Letters cli ls is) : Letters cli (118 :: ls) (.verbose :: is)
  | reverse {ls is} (hr : cli.reverse = true) (h : Letters cli ls is) : Letters cli (114 :: ls) (.reverse :: is)

/-- The command lines that say something, whether it makes sense together or not. -/
inductive Says (cli : Cli) : List Arg → List Said → Prop
  | nil : Says cli [] []
  /-- `--` and paths -/
  | rest (ps : List Path) (h : ∀ p ∈ ps, p ≠ []) : Says cli ([45, 45] :: ps) (ps.map .path)
  | path {as is} (p : Path) (h0 : p ≠ []) (h1 : ¬ LooksLikeOption p) (h : Says cli as is) : Says cli (p :: as) (.path p :: is)
  /-- `--verbose` -/
  | verbose {as is} (h : Says cli as is) : Says cli ((45 :: 45 :: Cli.verboseName) :: as) (.verbose :: is)
  /-- `--reverse` -/
  | reverse {as is} (hr : cli.reverse = true) (h : Says cli as is) :
      Says cli ((45 :: 45 :: Cli.reverseName) :: as) (.reverse :: is)
  /-- `--context=2` -/
  | contextEq {as is} (hc : cli.context = true) {v n} (hv : Writes v n) (h : Says cli as is) :
      Says cli ((45 :: 45 :: (Cli.contextName ++ 61 :: v)) :: as) (.context n :: is)
  /-- `--context 2` -/
  | context {as is} (hc : cli.context = true) {v n} (hv : Writes v n) (hl : ¬ LooksLikeOption v) (h : Says cli as is) :
      Says cli ((45 :: 45 :: Cli.contextName) :: v :: as) (.context n :: is)
  /-- `-vv` -/
  | letters {as is} {ls js} (h0 : ls ≠ []) (hl : Letters cli ls js) (h : Says cli as is) :
      Says cli ((45 :: ls) :: as) (js ++ is)
  /-- `-c2`, `-vvc2` -/
  | lettersValue {as is} {ls js} (hl : Letters cli ls js) (hc : cli.context = true) {v n} (hv : Writes v n) (h : Says cli as is) :
      Says cli ((45 :: (ls ++ 99 :: v)) :: as) (js ++ .context n :: is)
  /-- `-c=2`, `-vvc=2` -/
  | lettersEq {as is} {ls js} (hl : Letters cli ls js) (hc : cli.context = true) {v n} (hv : Writes v n) (h : Says cli as is) :
      Says cli ((45 :: (ls ++ 99 :: 61 :: v)) :: as) (js ++ .context n :: is)
  /-- `-c 2`, `-vvc 2` -/
  | lettersNext {as is} {ls js} (hl : Letters cli ls js) (hc : cli.context = true) {v n} (hv : Writes v n) (hn : ¬ LooksLikeOption v)
      (h : Says cli as is) : Says cli ((45 :: (ls ++ [99])) :: v :: as) (js ++ .context n :: is)

/-- The paths that are said. -/
def saidPaths (is : List Said) : List Path := is.filterMap fun | .path p => some p | _ => none

/-- The numbers of context lines that are said. -/
def saidContexts (is : List Said) : List Nat := is.filterMap fun | .context n => some n | _ => none

/-- What is said makes sense, and is this: as many paths as the program wants, and neither option twice. -/
structure Means (cli : Cli) (is : List Said) (g : Given) : Prop where
  paths : g.paths = saidPaths is
  enough : (saidPaths is).length = cli.paths
  verbose : g.verbose = min 255 (is.count .verbose)
  context : g.context.toList = saidContexts is
  reverse : is.count .reverse = if g.reverse then 1 else 0

/-- What is said does not yet contradict itself: not too many paths, and neither option twice. -/
structure Possible (cli : Cli) (is : List Said) : Prop where
  paths : (saidPaths is).length ≤ cli.paths
  context : (saidContexts is).length ≤ 1
  reverse : is.count .reverse ≤ 1

/-- The argument asks for help, after having said something: `--help`, `-h`, `-vh`. -/
def AsksHelp (cli : Cli) (a : Arg) (js : List Said) : Prop :=
  (a = 45 :: 45 :: Cli.helpName ∧ js = []) ∨ ∃ ls rest, a = 45 :: (ls ++ 104 :: rest) ∧ Letters cli ls js

end PwDiff
