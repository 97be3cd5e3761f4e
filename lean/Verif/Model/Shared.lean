import Verif.Model.Programs

/-!
# Several processes

`Model/Programs` runs one process to its end.  Here `pw_diff` and `pw_patch` are written down once more as series of
operations, after each of which another process may have its turn; `Proofs/Shared` shows that run alone they are the programs
of `Model/Programs`.

Simplifications: as there; in particular opening and reading a file is one operation (`pw_patch` puts a new file in the place
of the old one, which can still be read by whoever has opened it), and so is writing one.
-/

namespace PwDiff

open Sys

/-- A program as a series of operations: it has ended, or does an operation and goes on with its result. -/
inductive Steps (α : Type) : Type 1 where
  | ended (r : Except Ended α)
  | step {β : Type} (op : Sys β) (next : β → Steps α)

namespace Steps

def bind {α β : Type} : Steps α → (α → Steps β) → Steps β
  | ended (.ok a), f => f a
  | ended (.error e), _ => ended (.error e)
  | step op next, f => step op fun b => (next b).bind f

instance : Monad Steps where
  pure a := ended (.ok a)
  bind := Steps.bind

/-- A single operation. -/
def op {α : Type} (m : Sys α) : Steps α := step m fun a => ended (.ok a)

/-- `std::process::exit`. -/
def exit {α : Type} (code : Nat) : Steps α := ended (.error (.exited code))

/-- As `Sys.ofOutcome`. -/
def ofOutcome {α : Type} : Outcome α → Steps (Option α)
  | .ok a => pure (some a)
  | .ioErr => pure none
  | .panic => exit 101
  | .diverge => ended (.error .diverged)

/-- All operations one after the other, as long as the process is not killed. -/
def alone {α : Type} : Steps α → Sys α
  | ended r => fun w => (r, w)
  | step op next => Sys.bind op fun b => (next b).alone

end Steps

open Steps (op)

/-! ## The programs -/

/-- text_diff.rs:93-107 `TextChangeDiff::new`. -/
def TextChangeDiff.newSteps (p : Profile) (before after : Path) (context : Nat) : Steps (Option TextChangeDiff) := do
  let some r ← op (openFile before) | return none
  let some beforeLines ← Steps.ofOutcome (readText r) | return none
  let some r ← op (openFile after) | return none
  let some afterLines ← Steps.ofOutcome (readText r) | return none
  let some clumps ← Steps.ofOutcome (diffClumps p beforeLines afterLines context) | return none
  return some ⟨before, after, clumps⟩

/-- byte_diff.rs:97-111 `ByteChangeDiff::new`. -/
def ByteChangeDiff.newSteps (p : Profile) (before after : Path) (context : Nat) : Steps (Option ByteChangeDiff) := do
  let some r ← op (openFile before) | return none
  let some beforeBytes ← Steps.ofOutcome (readBytes r) | return none
  let some r ← op (openFile after) | return none
  let some afterBytes ← Steps.ofOutcome (readBytes r) | return none
  let some clumps ← Steps.ofOutcome (diffClumps p beforeBytes afterBytes context) | return none
  return some ⟨before, after, false, clumps⟩

/-- text_diff.rs:141-158 `PathAndLines::new`. -/
def PathAndLines.newSteps (path : Path) : Steps (Option PathAndLines) := do
  let some r ← op (openFile path) | return none
  let some lines ← Steps.ofOutcome (readText r) | return none
  return some ⟨path, lines⟩

/-- byte_diff.rs:147-158 `PathAndBytes::new`. -/
def PathAndBytes.newSteps (path : Path) : Steps (Option PathAndBytes) := do
  let some r ← op (openFile path) | return none
  let some bytes ← Steps.ofOutcome (readBytes r) | return none
  return some ⟨path, false, bytes⟩

/-- diff.rs:23-58 `Diff::new`. -/
def Diff.newSteps (p : Profile) (before after : Path) (context : Nat) : Steps (Option Diff) := do
  if ← op (pathExists before) then
    if ← op (pathExists after) then
      match ← TextChangeDiff.newSteps p before after context with
      | some d => return some (.textChange d)
      | none =>
        let some d ← ByteChangeDiff.newSteps p before after context | return none
        return some (.byteChange d)
    else
      match ← PathAndLines.newSteps before with
      | some d => return some (.textRemove d)
      | none =>
        let some d ← PathAndBytes.newSteps before | return none
        return some (.byteRemove d)
  else if ← op (pathExists after) then
    match ← PathAndLines.newSteps after with
    | some d => return some (.textAdd (d.changePath before))
    | none =>
      let some d ← PathAndBytes.newSteps after | return none
      return some (.byteAdd (d.changePath before))
  else return none

/-- pw_diff/src/main.rs:30-54. -/
def pwDiffSteps (p : Profile) (before after : Path) (context : Nat) : Steps Unit := do
  let some d ← Diff.newSteps p before after context | Steps.exit 1
  let some _ ← Steps.ofOutcome (← op (writeStdout d.toWriter)) | Steps.exit 5
  return ()

/-- Dropping a `TempFile`. -/
def dropTempSteps (temp : Path) : Steps Unit := do
  let _ ← op (removeFile temp)
  return ()

/-- pw_patch/src/main.rs:79-92 and 175-188. -/
def finishPatchSteps {β : Type} (temp patchable : Path) : Outcome β → Steps Unit
  | .ok _ => do
    if ← op (rename temp patchable) then dropTempSteps temp
    else Steps.exit 1
  | .ioErr => Steps.exit 1
  | .panic => do
    dropTempSteps temp
    Steps.exit 101
  | .diverge => .ended (.error .diverged)

/-- pw_patch/src/main.rs:69-98 and 165-194. -/
def patchContentSteps {β : Type} (temp patchable : Path) (m : WM β) : Steps Unit := do
  let some _ ← op (createNew temp) | Steps.exit 1
  let some i ← op (create temp) | Steps.exit 1
  finishPatchSteps temp patchable (← op (writeFile i m))

/-- pw_patch/src/main.rs:52-99 and 148-195. -/
def patchFileSteps {α β : Type} (temp patchable : Path) (read : Reader → Outcome α) (apply : α → WM β) : Steps Unit := do
  let some r ← op (openFile patchable) | Steps.exit 1
  let some content ← Steps.ofOutcome (read r) | Steps.exit 1
  patchContentSteps temp patchable (apply content)

/-- pw_patch/src/main.rs:111-121, 127-137, 207-217, 223-233. -/
def addFileSteps {α : Type} (path : Path) (content : WM α) : Steps Unit := do
  let some i ← op (createNew path) | return ()
  let _ ← op (writeFile i content)
  return ()

/-- pw_patch/src/main.rs:103-109, 139-145, 199-205, 235-241. -/
def deleteFileSteps (path : Path) : Steps Unit := do
  if ← op (removeFile path) then return ()
  else Steps.exit 1

/-- pw_patch/src/main.rs:51-244. -/
def applyDiffSteps (p : Profile) (temp : Path) (reverse : Bool) : Diff → Steps Unit
  | .textChange d => patchFileSteps temp d.beforePath readText (fun ls => applyInto p d.clumps ls reverse)
  | .textAdd d => if reverse then deleteFileSteps d.path else addFileSteps d.path d.writeInto
  | .textRemove d => if reverse then addFileSteps d.path d.writeInto else deleteFileSteps d.path
  | .byteChange d => patchFileSteps temp d.beforePath readBytes (fun bs => byteApplyInto p d.clumps bs reverse)
  | .byteAdd d => if reverse then deleteFileSteps d.path else addFileSteps d.path d.writeInto
  | .byteRemove d => if reverse then addFileSteps d.path d.writeInto else deleteFileSteps d.path

/-- pw_patch/src/main.rs:25-245. -/
def pwPatchSteps (p : Profile) (temp patch : Path) (reverse : Bool) : Steps Unit := do
  let some r ← op (openFile patch) | Steps.exit 1
  let some d ← Steps.ofOutcome (Diff.fromReader r) | Steps.exit 1
  applyDiffSteps p temp reverse d

/-! ## Taking turns -/

/-- A process: what is left to do, what will happen at its operations, and its standard output. -/
structure Process where
  rest : Steps Unit
  faults : List Fault
  stdout : List UInt8

/-- Processes sharing a file system. -/
structure Machine where
  fs : FS
  proc : Nat → Process

namespace Machine

/-- Process `i` does its next operation, if it has not ended. -/
def turn (m : Machine) (i : Nat) : Machine :=
  match (m.proc i).rest with
  | .ended _ => m
  | .step op next =>
    match op ⟨m.fs, (m.proc i).faults, (m.proc i).stdout⟩ with
    | (.ok b, w) => ⟨w.fs, fun k => if k = i then ⟨next b, w.faults, w.stdout⟩ else m.proc k⟩
    | (.error e, w) => ⟨w.fs, fun k => if k = i then ⟨.ended (.error e), w.faults, w.stdout⟩ else m.proc k⟩

/-- The processes have their turns in this order. -/
def turns (m : Machine) (order : List Nat) : Machine := order.foldl turn m

end Machine

end PwDiff
