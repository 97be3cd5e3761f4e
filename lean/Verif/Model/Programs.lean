import Verif.Model.Diff

/-!
# The programs `pw_diff` and `pw_patch`

pw_diff/src/main.rs and pw_patch/src/main.rs, with `Diff::new` (diff.rs:23-58) and the constructors of the diffs, on a file
system in which every operation may fail and the process may be killed at any point.

Simplifications: the command line is left to `Model/CommandLine`, and logging to `Model/Logging`; `File::open` and reading the file are one operation;
the process is alone (no other process changes the files); killing a process does not lose what it has written (no power
failures).  `temp-file`'s `TempFile` creates a new file and removes it, ignoring errors, when it is dropped.
-/

namespace PwDiff

/-! ## File system -/

/-- A directory entry. -/
inductive Node where
  | file (content : List UInt8)
  | dir
  | link (target : Nat)
deriving DecidableEq

/-- A file system: which entry a path names (different paths may name the same one), and what is there. -/
structure FS where
  entry : Path → Nat
  node : Nat → Option Node

namespace FS

/-- Symbolic links are followed; at most `n - 1` of them. -/
def followFrom (fs : FS) : Nat → Nat → Option Nat
  | 0, _ => none
  | n + 1, i =>
    match fs.node i with
    | some (.link t) => followFrom fs n t
    | _ => some i

/-- The entry a path leads to when links are followed (`none`: more than 40 of them). -/
def follow (fs : FS) (path : Path) : Option Nat := fs.followFrom 41 (fs.entry path)

/-- Changing an entry. -/
def set (fs : FS) (i : Nat) (x : Option Node) : FS := { fs with node := fun j => if j = i then x else fs.node j }

/-- What `File::open` and reading deliver: nothing if there is no such file, an error for a directory. -/
def contentAt (fs : FS) (path : Path) : Option Reader :=
  match fs.follow path with
  | none => none
  | some i =>
    match fs.node i with
    | some (.file content) => some ⟨content, false⟩
    | some .dir => some ⟨[], true⟩
    | _ => none

end FS

/-! ## Processes -/

/-- What happens at an operation: nothing special; it fails (transferring `after` bytes before, if it transfers any); the
process is killed during it (after `after` bytes). -/
inductive Fault where
  | none
  | fail (after : Nat)
  | kill (after : Nat)
deriving DecidableEq, Repr

/-- How a process ends.  `diverged` is produced only if the fuel of a modelled loop runs out. -/
inductive Ended where
  | exited (code : Nat)
  | killed
  | diverged
deriving DecidableEq, Repr

/-- The state around a process: the file system, what will happen at the next operations (nothing special when the list
is used up), and its standard output. -/
structure World where
  fs : FS
  faults : List Fault
  stdout : List UInt8

/-- A process: goes on with a value, or has ended. -/
def Sys (α : Type) : Type := World → (Except Ended α) × World

namespace Sys

def bind {α β : Type} (m : Sys α) (f : α → Sys β) : Sys β := fun w =>
  match m w with
  | (.ok a, w') => f a w'
  | (.error e, w') => (.error e, w')

instance : Monad Sys where
  pure a := fun w => (.ok a, w)
  bind := Sys.bind

/-- `std::process::exit`. -/
def exit {α : Type} (code : Nat) : Sys α := fun w => (.error (.exited code), w)

/-- Running a program: returning from `main` is exit status 0. -/
def run (m : Sys Unit) (w : World) : Ended × World :=
  match m w with
  | (.ok _, w') => (.exited 0, w')
  | (.error e, w') => (e, w')

/-- One operation: what it does if nothing special happens, if it fails, and if the process is killed during it. -/
def operation {α : Type} (normal : World → α × World) (failing : Nat → World → α × World) (killed : Nat → World → World) :
    Sys α := fun w =>
  match w.faults with
  | [] => let (a, w') := normal w; (.ok a, w')
  | .none :: fs => let (a, w') := normal { w with faults := fs }; (.ok a, w')
  | .fail n :: fs => let (a, w') := failing n { w with faults := fs }; (.ok a, w')
  | .kill n :: fs => (.error .killed, killed n { w with faults := fs })

/-- `Path::exists`. -/
def pathExists (path : Path) : Sys Bool :=
  operation
    (fun w => (match w.fs.follow path with
      | some i => (w.fs.node i).isSome
      | none => false, w))
    (fun _ w => (false, w))
    (fun _ w => w)

/-- `File::open` and what reading the file will deliver. -/
def openFile (path : Path) : Sys (Option Reader) :=
  operation
    (fun w => (w.fs.contentAt path, w))
    (fun n w => ((w.fs.contentAt path).map fun r => ⟨r.data.take n, true⟩, w))
    (fun _ w => w)

/-- `File::create_new`; also the creation of a `TempFile`.  The new file's entry. -/
def createNew (path : Path) : Sys (Option Nat) :=
  operation
    (fun w =>
      if (w.fs.node (w.fs.entry path)).isSome then (none, w)
      else (some (w.fs.entry path), { w with fs := w.fs.set (w.fs.entry path) (some (.file [])) }))
    (fun _ w => (none, w))
    (fun _ w => w)

/-- `File::create`: the file is created or emptied.  Its entry. -/
def create (path : Path) : Sys (Option Nat) :=
  operation
    (fun w =>
      match w.fs.follow path with
      | none => (none, w)
      | some i => if w.fs.node i = some .dir then (none, w) else (some i, { w with fs := w.fs.set i (some (.file [])) }))
    (fun _ w => (none, w))
    (fun _ w => w)

/-- Everything that is written to a file just created. -/
def writeFile {α : Type} (i : Nat) (m : WM α) : Sys (Outcome α) :=
  operation
    (fun w => (m.run.1, { w with fs := w.fs.set i (some (.file m.run.2)) }))
    (fun n w => ((m ⟨[], some n⟩).1, { w with fs := w.fs.set i (some (.file (m ⟨[], some n⟩).2.out)) }))
    (fun n w => { w with fs := w.fs.set i (some (.file (m.run.2.take n))) })

/-- `std::fs::rename`: whether it succeeded. -/
def rename (src dst : Path) : Sys Bool :=
  operation
    (fun w =>
      let s := w.fs.entry src
      let d := w.fs.entry dst
      if w.fs.node s = none ∨ w.fs.node d = some .dir then (false, w)
      else if s = d then (true, w)
      else (true, { w with fs := (w.fs.set d (w.fs.node s)).set s none }))
    (fun _ w => (false, w))
    (fun _ w => w)

/-- `std::fs::remove_file`: whether it succeeded. -/
def removeFile (path : Path) : Sys Bool :=
  operation
    (fun w =>
      let i := w.fs.entry path
      if w.fs.node i = none ∨ w.fs.node i = some .dir then (false, w)
      else (true, { w with fs := w.fs.set i none }))
    (fun _ w => (false, w))
    (fun _ w => w)

/-- What a line-buffered writer has passed on: everything up to the last newline. -/
def wholeLines (bs : List UInt8) : List UInt8 := (bs.reverse.dropWhile (· ≠ 10)).reverse

/-- Writing to the standard output, which is line-buffered: what follows the last newline is written when the process
exits, and an error then is ignored. -/
def writeStdout (m : WM Unit) : Sys (Outcome Unit) :=
  operation
    (fun w => (m.run.1, { w with stdout := w.stdout ++ m.run.2 }))
    (fun n w => (if (wholeLines m.run.2).length ≤ n then m.run.1 else .ioErr, { w with stdout := w.stdout ++ m.run.2.take n }))
    (fun n w => { w with stdout := w.stdout ++ m.run.2.take n })

/-- Going on with the result of a computation: `Err` is `none`, a panic ends the process with status 101. -/
def ofOutcome {α : Type} : Outcome α → Sys (Option α)
  | .ok a => pure (some a)
  | .ioErr => pure none
  | .panic => exit 101
  | .diverge => fun w => (.error .diverged, w)

end Sys

open Sys

/-! ## pw_diff -/

/-- text_diff.rs:93-107 `TextChangeDiff::new`. -/
def TextChangeDiff.new (p : Profile) (before after : Path) (context : Nat) : Sys (Option TextChangeDiff) := do
  let some r ← openFile before | return none
  let some beforeLines ← ofOutcome (readText r) | return none
  let some r ← openFile after | return none
  let some afterLines ← ofOutcome (readText r) | return none
  let some clumps ← ofOutcome (diffClumps p beforeLines afterLines context) | return none
  return some ⟨before, after, clumps⟩

/-- byte_diff.rs:97-111 `ByteChangeDiff::new`. -/
def ByteChangeDiff.new (p : Profile) (before after : Path) (context : Nat) : Sys (Option ByteChangeDiff) := do
  let some r ← openFile before | return none
  let some beforeBytes ← ofOutcome (readBytes r) | return none
  let some r ← openFile after | return none
  let some afterBytes ← ofOutcome (readBytes r) | return none
  let some clumps ← ofOutcome (diffClumps p beforeBytes afterBytes context) | return none
  return some ⟨before, after, false, clumps⟩

/-- text_diff.rs:141-158 `PathAndLines::new`; the loop is that of `Seq::<String>::read`. -/
def PathAndLines.new (path : Path) : Sys (Option PathAndLines) := do
  let some r ← openFile path | return none
  let some lines ← ofOutcome (readText r) | return none
  return some ⟨path, lines⟩

/-- byte_diff.rs:147-158 `PathAndBytes::new`. -/
def PathAndBytes.new (path : Path) : Sys (Option PathAndBytes) := do
  let some r ← openFile path | return none
  let some bytes ← ofOutcome (readBytes r) | return none
  return some ⟨path, false, bytes⟩

/-- diff.rs:23-58 `Diff::new`. -/
def Diff.new (p : Profile) (before after : Path) (context : Nat) : Sys (Option Diff) := do
  if ← pathExists before then
    if ← pathExists after then
      match ← TextChangeDiff.new p before after context with
      | some d => return some (.textChange d)
      | none =>
        let some d ← ByteChangeDiff.new p before after context | return none
        return some (.byteChange d)
    else
      match ← PathAndLines.new before with
      | some d => return some (.textRemove d)
      | none =>
        let some d ← PathAndBytes.new before | return none
        return some (.byteRemove d)
  else if ← pathExists after then
    match ← PathAndLines.new after with
    | some d => return some (.textAdd (d.changePath before))
    | none =>
      let some d ← PathAndBytes.new after | return none
      return some (.byteAdd (d.changePath before))
  else return none

/-- pw_diff/src/main.rs:30-54 after the command line has been parsed. -/
def pwDiff (p : Profile) (before after : Path) (context : Nat) : Sys Unit := do
  let some d ← Diff.new p before after context | exit 1
  let some _ ← ofOutcome (← writeStdout d.toWriter) | exit 5
  return ()

/-! ## pw_patch -/

/-- Dropping a `TempFile`. -/
def dropTemp (temp : Path) : Sys Unit := do
  let _ ← removeFile temp
  return ()

/-- pw_patch/src/main.rs:79-92 and 175-188: what is done after `apply_into` has returned.  `std::process::exit` does not
drop the `TempFile`, returning from the arm and a panic do. -/
def finishPatch {β : Type} (temp patchable : Path) : Outcome β → Sys Unit
  | .ok _ => do
    if ← rename temp patchable then dropTemp temp
    else exit 1
  | .ioErr => exit 1
  | .panic => do
    dropTemp temp
    exit 101
  | .diverge => fun w => (.error .diverged, w)

/-- pw_patch/src/main.rs:69-98 and 165-194: `m` is the call of `apply_into`, `temp` the path the `TempFile` gets. -/
def patchContent {β : Type} (temp patchable : Path) (m : WM β) : Sys Unit := do
  let some _ ← createNew temp | exit 1
  let some i ← create temp | exit 1
  finishPatch temp patchable (← writeFile i m)

/-- pw_patch/src/main.rs:52-99 and 148-195: the arms for `TextChange` and `ByteChange`, which differ only in how the file
is read and the type of the diff. -/
def patchFile {α β : Type} (temp patchable : Path) (read : Reader → Outcome α) (apply : α → WM β) : Sys Unit := do
  let some r ← openFile patchable | exit 1
  let some content ← ofOutcome (read r) | exit 1
  patchContent temp patchable (apply content)

/-- pw_patch/src/main.rs:111-121, 127-137, 207-217, 223-233: creating a file.  All errors are only logged. -/
def addFile {α : Type} (path : Path) (content : WM α) : Sys Unit := do
  let some i ← createNew path | return ()
  let _ ← writeFile i content
  return ()

/-- pw_patch/src/main.rs:103-109, 139-145, 199-205, 235-241: removing a file. -/
def deleteFile (path : Path) : Sys Unit := do
  if ← removeFile path then return ()
  else exit 1

/-- pw_patch/src/main.rs:51-244: what is done with the diff. -/
def applyDiff (p : Profile) (temp : Path) (reverse : Bool) : Diff → Sys Unit
  | .textChange d => patchFile temp d.beforePath readText (fun ls => applyInto p d.clumps ls reverse)
  | .textAdd d => if reverse then deleteFile d.path else addFile d.path d.writeInto
  | .textRemove d => if reverse then addFile d.path d.writeInto else deleteFile d.path
  | .byteChange d => patchFile temp d.beforePath readBytes (fun bs => byteApplyInto p d.clumps bs reverse)
  | .byteAdd d => if reverse then deleteFile d.path else addFile d.path d.writeInto
  | .byteRemove d => if reverse then addFile d.path d.writeInto else deleteFile d.path

/-- pw_patch/src/main.rs:25-245 after the command line has been parsed. -/
def pwPatch (p : Profile) (temp patch : Path) (reverse : Bool) : Sys Unit := do
  let some r ← openFile patch | exit 1
  let some d ← ofOutcome (Diff.fromReader r) | exit 1
  applyDiff p temp reverse d

end PwDiff
