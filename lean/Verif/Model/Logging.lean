import Verif.Model.Programs

/-!
# Log messages

The messages that the library (`log::info!`, `log::warn!` and `log::error!` in apply_text.rs and apply_bytes.rs) and the two
programs emit, and which of them `stderrlog` shows.  The other model files leave logging out; here the functions that log are
written a second time, with their messages, and `Proofs/Logging` shows that without the messages they are the functions of
the other files.

Simplifications: a message is the kind of message with the numbers, paths and statistics in it, not its text; what an
operating system error says is left out.  A process that is killed while it applies a patch has not logged anything for
that (nothing is claimed about killed processes).  The counter of clumps is a natural number (`i32` in the code).
-/

namespace PwDiff

/-- `log::Level`, as far as it is used. -/
inductive Level where
  | error
  | warn
  | info
deriving DecidableEq, Repr

/-- The crate in which a message is logged: the first component of its `module_path!()`. -/
inductive Crate where
  | pwDiffLib
  | pwDiff
  | pwPatch
deriving DecidableEq, Repr

/-- What a message says. -/
inductive Message where
  /-- "Clump #n applies cleanly." -/
  | applies (n : Nat)
  /-- "Clump #n applies with r reductions." -/
  | appliesReduced (n : Nat) (r : Nat × Nat)
  /-- "Clump #n applies with offset d." -/
  | appliesOffset (n : Nat) (d : Int)
  /-- "Clump #n applies with r reductions and offset d." -/
  | appliesReducedOffset (n : Nat) (r : Nat × Nat) (d : Int)
  /-- "Clump #n already applied" -/
  | already (n : Nat)
  /-- "Clump #n already applied with r reductions." -/
  | alreadyReduced (n : Nat) (r : Nat × Nat)
  /-- "Clump #n already applied with offset d" -/
  | alreadyOffset (n : Nat) (d : Int)
  /-- "Clump #n already applied with r reductions and offset d." -/
  | alreadyReducedOffset (n : Nat) (r : Nat × Nat) (d : Int)
  /-- "Clump #n could NOT be applied!" -/
  | notApplied (n : Nat)
  /-- "Clump #n NOT already applied!" -/
  | notAlready (n : Nat)
  /-- the statistics of a text patch -/
  | statistics (s : Statistics)
  /-- "()": the statistics of a byte patch -/
  | noStatistics
  /-- "{path} deleted" -/
  | deleted (path : Path)
  /-- "{path} created" -/
  | created (path : Path)
  /-- "Error opening {path}" -/
  | errorOpening (path : Path)
  /-- "Error reading patch file" -/
  | errorReadingPatch
  /-- "Error reading {path}" -/
  | errorReading (path : Path)
  /-- "Error creating temp file" -/
  | errorCreatingTemp
  /-- "Error opening temporary file" -/
  | errorOpeningTemp
  /-- "Patch failed to apply" -/
  | errorApplying
  /-- "Error writing patched file" -/
  | errorWritingPatched
  /-- "{path} deletion failed" -/
  | errorDeleting (path : Path)
  /-- "{path} creation failed" -/
  | errorCreating (path : Path)
  /-- "Error: …" of pw_diff -/
  | errorNoDiff
  /-- "Error writing diff" -/
  | errorWritingDiff
deriving DecidableEq

/-- A record of the log. -/
structure Record where
  crate : Crate
  level : Level
  message : Message
deriving DecidableEq

/-- pw_diff/src/main.rs:33-37 and pw_patch/src/main.rs:28-32: `stderrlog` with `.module(module_path!())` shows only the
messages of the program's own crate, and of these, with verbosity 0 the errors, with 1 also the warnings, and with 2 or more
also the information. -/
def shown (program : Crate) (verbosity : Nat) (r : Record) : Bool :=
  decide (r.crate = program) &&
    match r.level with
    | .error => true
    | .warn => decide (1 ≤ verbosity)
    | .info => decide (2 ≤ verbosity)

/-! ## Writing and logging -/

/-- A computation that writes and logs. -/
def LW (α : Type) : Type := Writer × List Record → Outcome α × (Writer × List Record)

namespace LW

def bind {α β : Type} (m : LW α) (f : α → LW β) : LW β := fun s =>
  match m s with
  | (.ok a, s') => f a s'
  | (.ioErr, s') => (.ioErr, s')
  | (.panic, s') => (.panic, s')
  | (.diverge, s') => (.diverge, s')

instance : Monad LW where
  pure a := fun s => (.ok a, s)
  bind := LW.bind

/-- A computation that does not log. -/
def quiet {α : Type} (m : WM α) : LW α := fun s => ((m s.1).1, ((m s.1).2, s.2))

instance : MonadLift WM LW where
  monadLift := LW.quiet

/-- A message of the library. -/
def say (level : Level) (message : Message) : LW Unit := fun s => (.ok (), (s.1, s.2 ++ [⟨.pwDiffLib, level, message⟩]))

/-- Running on a fresh writer that never fails: the outcome, what is written, and the log. -/
def run {α : Type} (m : LW α) : Outcome α × List UInt8 × List Record :=
  let r := m (⟨[], none⟩, [])
  (r.1, r.2.1.out, r.2.2)

end LW

/-! ## apply_text.rs -/

section text

variable {T : Type} {C : Type} [TextClump C T] [DecidableEq T] [Item T]

/-- apply_text.rs:269-348: one iteration of the loop, for clump number `n`. -/
def applyStepL (p : Profile) (patchable : List T) (reverse : Bool) (n : Nat) (clump : C) (next : Option C)
    (pd : ConsumableSeq T) (offset : Int) (stats : Statistics) : LW (ConsumableSeq T × Int × Statistics) := do
  match ← (WM.lift (willApply p clump patchable offset reverse) : WM _) with
  | some .cleanly => do
    let pd ← clumpApplyInto p clump pd offset none reverse
    LW.say .info (.applies n)
    return (pd, offset, { stats with clean := stats.clean + 1 })
  | some (.withReductions r) => do
    let pd ← clumpApplyInto p clump pd offset (some r) reverse
    LW.say .warn (.appliesReduced n r)
    return (pd, offset, { stats with fuzzy := stats.fuzzy + 1 })
  | none => do
  match ← (WM.lift (willApplyNearby p clump pd next offset reverse) : WM _) with
  | some (adj, w) => do
    let offset ← (WM.lift (iadd p offset adj) : WM _)
    match w with
    | .cleanly => do
      let pd ← clumpApplyInto p clump pd offset none reverse
      LW.say .warn (.appliesOffset n adj)
      return (pd, offset, { stats with fuzzy := stats.fuzzy + 1 })
    | .withReductions r => do
      let pd ← clumpApplyInto p clump pd offset (some r) reverse
      LW.say .warn (.appliesReducedOffset n r adj)
      return (pd, offset, { stats with fuzzy := stats.fuzzy + 1 })
  | none => do
  match ← (WM.lift (clumpIsAlreadyApplied p clump patchable offset reverse) : WM _) with
  | some .cleanly => do
    let pd ← alreadyAppliedInto p clump pd offset none reverse
    LW.say .warn (.already n)
    return (pd, offset, { stats with alreadyApplied := stats.alreadyApplied + 1 })
  | some (.withReductions r) => do
    let pd ← alreadyAppliedInto p clump pd offset (some r) reverse
    LW.say .warn (.alreadyReduced n r)
    return (pd, offset, { stats with alreadyAppliedFuzzy := stats.alreadyAppliedFuzzy + 1 })
  | none => do
  match ← (WM.lift (clumpIsAlreadyAppliedNearby p clump pd next offset reverse) : WM _) with
  | some (adj, w) => do
    let offset ← (WM.lift (iadd p offset adj) : WM _)
    match w with
    | .cleanly => do
      let pd ← alreadyAppliedInto p clump pd offset none reverse
      LW.say .warn (.alreadyOffset n adj)
      return (pd, offset, { stats with alreadyAppliedFuzzy := stats.alreadyAppliedFuzzy + 1 })
    | .withReductions r => do
      let pd ← alreadyAppliedInto p clump pd offset (some r) reverse
      LW.say .warn (.alreadyReducedOffset n r adj)
      return (pd, offset, { stats with alreadyAppliedFuzzy := stats.alreadyAppliedFuzzy + 1 })
  | none => do
    writeFailureDataInto p clump reverse
    LW.say .error (.notApplied n)
    return (pd, offset, { stats with failed := stats.failed + 1 })

/-- apply_text.rs:267-348: the loop; `n` is `clump_num`. -/
def applyLoopL (p : Profile) (patchable : List T) (reverse : Bool) :
    Nat → List C → ConsumableSeq T → Int → Statistics → LW (ConsumableSeq T × Statistics)
  | _, [], pd, _, stats => pure (pd, stats)
  | n, clump :: rest, pd, offset, stats => do
    let (pd, offset, stats) ← applyStepL p patchable reverse (n + 1) clump rest.head? pd offset stats
    applyLoopL p patchable reverse (n + 1) rest pd offset stats

/-- apply_text.rs:258-351 `ApplyClumpsFuzzy::apply_into`. -/
def applyIntoL (p : Profile) (clumps : List C) (patchable : List T) (reverse : Bool) : LW Statistics := do
  let (pd, stats) ← applyLoopL p patchable reverse 0 clumps (ConsumableSeq.new patchable) 0 {}
  let _ ← pd.writeRemainder p
  return stats

omit [Item T]

/-- apply_text.rs:358-388: the loop of `ApplyClumpsFuzzy::is_already_applied`. -/
def isAlreadyAppliedLoopL (p : Profile) (patchable : List T) (reverse : Bool) (pd : ConsumableSeq T) :
    Nat → List C → Int → LW Bool
  | _, [], _ => pure true
  | n, clump :: rest, offset => do
    match ← (WM.lift (clumpIsAlreadyApplied p clump patchable offset reverse) : WM _) with
    | some .cleanly => do
      LW.say .info (.already (n + 1))
      isAlreadyAppliedLoopL p patchable reverse pd (n + 1) rest offset
    | some (.withReductions r) => do
      LW.say .warn (.alreadyReduced (n + 1) r)
      isAlreadyAppliedLoopL p patchable reverse pd (n + 1) rest offset
    | none => do
      match ← (WM.lift (clumpIsAlreadyAppliedNearby p clump pd rest.head? offset reverse) : WM _) with
      | some (adj, w) => do
        let offset ← (WM.lift (iadd p offset adj) : WM _)
        match w with
        | .cleanly => do
          LW.say .warn (.alreadyOffset (n + 1) adj)
          isAlreadyAppliedLoopL p patchable reverse pd (n + 1) rest offset
        | .withReductions r => do
          LW.say .warn (.alreadyReducedOffset (n + 1) r adj)
          isAlreadyAppliedLoopL p patchable reverse pd (n + 1) rest offset
      | none => do
        LW.say .error (.notAlready (n + 1))
        return false

/-- apply_text.rs:353-389 `ApplyClumpsFuzzy::is_already_applied`. -/
def isAlreadyAppliedL (p : Profile) (clumps : List C) (patchable : List T) (reverse : Bool) : LW Bool :=
  isAlreadyAppliedLoopL p patchable reverse (ConsumableSeq.new patchable) 0 clumps 0

end text

/-! ## apply_bytes.rs -/

/-- apply_bytes.rs:43-54: the body of the loop, for clump number `n`. -/
def byteApplyStepL (p : Profile) (patchable : List UInt8) (reverse : Bool) (n : Nat) (clump : DiffClump UInt8)
    (pd : ConsumableSeq UInt8) : LW (ConsumableSeq UInt8) := do
  if ← (WM.lift (byteWillApply p clump patchable reverse) : WM _) then do
    let pd ← byteClumpApplyInto p clump pd reverse
    LW.say .info (.applies n)
    return pd
  else if ← (WM.lift (byteIsAlreadyApplied p clump patchable reverse) : WM _) then do
    let pd ← byteAlreadyAppliedInto p clump pd reverse
    LW.say .warn (.already n)
    return pd
  else do
    LW.say .error (.notApplied n)
    return pd

/-- apply_bytes.rs:42-54: the loop. -/
def byteApplyLoopL (p : Profile) (patchable : List UInt8) (reverse : Bool) :
    Nat → List (DiffClump UInt8) → ConsumableSeq UInt8 → LW (ConsumableSeq UInt8)
  | _, [], pd => pure pd
  | n, clump :: rest, pd => do
    let pd ← byteApplyStepL p patchable reverse (n + 1) clump pd
    byteApplyLoopL p patchable reverse (n + 1) rest pd

/-- apply_bytes.rs:34-56 `ApplyClumpsClean::apply_into`. -/
def byteApplyIntoL (p : Profile) (clumps : List (DiffClump UInt8)) (patchable : List UInt8) (reverse : Bool) : LW Unit := do
  let pd ← byteApplyLoopL p patchable reverse 0 clumps (ConsumableSeq.new patchable)
  let _ ← pd.writeRemainder p
  return ()

/-- apply_bytes.rs:58-71 `ApplyClumpsClean::already_applied`. -/
def byteAlreadyAppliedL (p : Profile) (patchable : List UInt8) (reverse : Bool) : Nat → List (DiffClump UInt8) → LW Bool
  | _, [] => pure true
  | n, clump :: rest => do
    if ← (WM.lift (byteIsAlreadyApplied p clump patchable reverse) : WM _) then do
      LW.say .info (.already (n + 1))
      byteAlreadyAppliedL p patchable reverse (n + 1) rest
    else do
      LW.say .error (.notAlready (n + 1))
      return false

/-! ## The programs -/

/-- A process that logs. -/
def LS (α : Type) : Type := World × List Record → (Except Ended α) × (World × List Record)

namespace LS

def bind {α β : Type} (m : LS α) (f : α → LS β) : LS β := fun s =>
  match m s with
  | (.ok a, s') => f a s'
  | (.error e, s') => (.error e, s')

instance : Monad LS where
  pure a := fun s => (.ok a, s)
  bind := LS.bind

/-- Something that does not log. -/
def quiet {α : Type} (m : Sys α) : LS α := fun s => ((m s.1).1, ((m s.1).2, s.2))

instance : MonadLift Sys LS where
  monadLift := LS.quiet

/-- A message of a program. -/
def say (crate : Crate) (level : Level) (message : Message) : LS Unit := fun s =>
  (.ok (), (s.1, s.2 ++ [⟨crate, level, message⟩]))

/-- `log::error!(…); std::process::exit(…)`. -/
def fatal {α : Type} (crate : Crate) (message : Message) (code : Nat) : LS α := do
  say crate .error message
  Sys.exit code

/-- The log of what is written to a file when it is written as `Sys.writeFile` does. -/
def writeLog {α : Type} (m : LW α) (w : World) : List Record :=
  match w.faults with
  | [] => m.run.2.2
  | .none :: _ => m.run.2.2
  | .fail n :: _ => (m (⟨[], some n⟩, [])).2.2
  | .kill _ :: _ => []

/-- The writing part of a computation that writes and logs. -/
def writing {α : Type} (m : LW α) : WM α := fun w => ((m (w, [])).1, (m (w, [])).2.1)

/-- Everything that is written to a file just created, with what is logged at it. -/
def writeFile {α : Type} (i : Nat) (m : LW α) : LS (Outcome α) := fun s =>
  ((Sys.writeFile i (writing m) s.1).1, ((Sys.writeFile i (writing m) s.1).2, s.2 ++ writeLog m s.1))

/-- Running a program: returning from `main` is exit status 0. -/
def run (m : LS Unit) (w : World) : Ended × World × List Record :=
  match m (w, []) with
  | (.ok _, s) => (.exited 0, s.1, s.2)
  | (.error e, s) => (e, s.1, s.2)

end LS

open Sys

/-- pw_diff/src/main.rs:30-54 after the command line has been parsed.  (`Diff::new` does not log.) -/
def pwDiffL (p : Profile) (before after : Path) (context : Nat) : LS Unit := do
  match ← LS.quiet (Diff.new p before after context) with
  | none => LS.fatal .pwDiff .errorNoDiff 1
  | some d =>
    match ← LS.quiet (ofOutcome (← LS.quiet (writeStdout d.toWriter))) with
    | none => LS.fatal .pwDiff .errorWritingDiff 5
    | some _ => return ()

/-- pw_patch/src/main.rs:79-92 and 175-188: what is done after `apply_into` has returned. -/
def finishPatchL {β : Type} (temp patchable : Path) (statistics : β → Message) : Outcome β → LS Unit
  | .ok stats => do
    if ← LS.quiet (rename temp patchable) then do
      LS.say .pwPatch .info (statistics stats)
      LS.quiet (dropTemp temp)
    else LS.fatal .pwPatch .errorWritingPatched 1
  | .ioErr => LS.fatal .pwPatch .errorApplying 1
  | .panic => LS.quiet do
    dropTemp temp
    exit 101
  | .diverge => fun s => (.error .diverged, s)

/-- pw_patch/src/main.rs:69-98 and 165-194. -/
def patchContentL {β : Type} (temp patchable : Path) (statistics : β → Message) (m : LW β) : LS Unit := do
  match ← LS.quiet (createNew temp) with
  | none => LS.fatal .pwPatch .errorCreatingTemp 1
  | some _ =>
    match ← LS.quiet (create temp) with
    | none => LS.fatal .pwPatch .errorOpeningTemp 1
    | some i => finishPatchL temp patchable statistics (← LS.writeFile i m)

/-- pw_patch/src/main.rs:52-99 and 148-195. -/
def patchFileL {α β : Type} (temp patchable : Path) (read : Reader → Outcome α) (statistics : β → Message)
    (apply : α → LW β) : LS Unit := do
  match ← LS.quiet (openFile patchable) with
  | none => LS.fatal .pwPatch (.errorOpening patchable) 1
  | some r =>
    match ← LS.quiet (ofOutcome (read r)) with
    | none => LS.fatal .pwPatch (.errorReading patchable) 1
    | some content => patchContentL temp patchable statistics (apply content)

/-- pw_patch/src/main.rs:111-121, 127-137, 207-217, 223-233: creating a file (writing its content does not log). -/
def addFileL (path : Path) (content : WM Unit) : LS Unit := do
  match ← LS.quiet (createNew path) with
  | none => LS.say .pwPatch .error (.errorCreating path)
  | some i =>
    match ← LS.quiet (writeFile i content) with
    | .ok _ => LS.say .pwPatch .info (.created path)
    | _ => LS.say .pwPatch .error (.errorCreating path)

/-- pw_patch/src/main.rs:103-109, 139-145, 199-205, 235-241: removing a file. -/
def deleteFileL (path : Path) : LS Unit := do
  if ← LS.quiet (removeFile path) then LS.say .pwPatch .info (.deleted path)
  else LS.fatal .pwPatch (.errorDeleting path) 1

/-- pw_patch/src/main.rs:51-244: what is done with the diff. -/
def applyDiffL (p : Profile) (temp : Path) (reverse : Bool) : Diff → LS Unit
  | .textChange d => patchFileL temp d.beforePath readText .statistics (fun ls => applyIntoL p d.clumps ls reverse)
  | .textAdd d => if reverse then deleteFileL d.path else addFileL d.path d.writeInto
  | .textRemove d => if reverse then addFileL d.path d.writeInto else deleteFileL d.path
  | .byteChange d =>
    patchFileL temp d.beforePath readBytes (fun _ => .noStatistics) (fun bs => byteApplyIntoL p d.clumps bs reverse)
  | .byteAdd d => if reverse then deleteFileL d.path else addFileL d.path d.writeInto
  | .byteRemove d => if reverse then addFileL d.path d.writeInto else deleteFileL d.path

/-- pw_patch/src/main.rs:25-245 after the command line has been parsed. -/
def pwPatchL (p : Profile) (temp patch : Path) (reverse : Bool) : LS Unit := do
  match ← LS.quiet (openFile patch) with
  | none => LS.fatal .pwPatch (.errorOpening patch) 1
  | some r =>
    match ← LS.quiet (ofOutcome (Diff.fromReader r)) with
    | none => LS.fatal .pwPatch .errorReadingPatch 1
    | some d => applyDiffL p temp reverse d

end PwDiff
