import Verif.Model.Programs

/-!
# `pw_patch` on files with several names and with permissions

In `Model/Programs` a directory entry holds the content of a file.  Here it refers to a file (an inode), which other entries may
refer to as well (hard links) and which has permissions besides its content.  `pw_patch` is written down once more for such a
disk; `Proofs/Inodes` shows that apart from what is new here it does the same as in `Model/Programs`.

Simplifications: as in `Model/Programs`; the permissions are a number that the operations do not look at (what they forbid is one
of the possible faults); owners, times and extended attributes are left out: they behave like the permissions.
-/

namespace PwDiff

/-- A file. -/
structure Inode where
  content : List UInt8
  mode : Nat
deriving DecidableEq

/-- A directory entry. -/
inductive Name where
  | file (inode : Nat)
  | dir
  | link (target : Nat)
deriving DecidableEq

/-- A file system: which entry a path names, what the entries refer to, the files, the number the next new file gets, and the
permissions that new files get when they are created by `TempFile` and by `File::create_new` or `File::create`. -/
structure Disk where
  entry : Path → Nat
  name : Nat → Option Name
  inode : Nat → Inode
  fresh : Nat
  tempMode : Nat
  newMode : Nat

namespace Disk

/-- Symbolic links are followed; at most `n - 1` of them. -/
def followFrom (disk : Disk) : Nat → Nat → Option Nat
  | 0, _ => none
  | n + 1, i =>
    match disk.name i with
    | some (.link t) => followFrom disk n t
    | _ => some i

/-- The entry a path leads to when links are followed (`none`: more than 40 of them). -/
def follow (disk : Disk) (path : Path) : Option Nat := disk.followFrom 41 (disk.entry path)

/-- Changing an entry. -/
def setName (disk : Disk) (i : Nat) (x : Option Name) : Disk := { disk with name := fun j => if j = i then x else disk.name j }

/-- Changing the content of a file: the permissions stay, and all names of the file show the new content. -/
def setContent (disk : Disk) (n : Nat) (content : List UInt8) : Disk :=
  { disk with inode := fun m => if m = n then { disk.inode n with content := content } else disk.inode m }

/-- A new empty file. -/
def add (disk : Disk) (i : Nat) (mode : Nat) : Disk :=
  { disk with
    name := fun j => if j = i then some (.file disk.fresh) else disk.name j
    inode := fun m => if m = disk.fresh then ⟨[], mode⟩ else disk.inode m
    fresh := disk.fresh + 1 }

/-- What `File::open` and reading deliver. -/
def contentAt (disk : Disk) (path : Path) : Option Reader :=
  match disk.follow path with
  | none => none
  | some i =>
    match disk.name i with
    | some (.file n) => some ⟨(disk.inode n).content, false⟩
    | some .dir => some ⟨[], true⟩
    | _ => none

end Disk

/-- The state around a process. -/
structure DiskWorld where
  disk : Disk
  faults : List Fault
  stdout : List UInt8

/-- A process: goes on with a value, or has ended. -/
def DiskSys (α : Type) : Type := DiskWorld → (Except Ended α) × DiskWorld

namespace DiskSys

def bind {α β : Type} (m : DiskSys α) (f : α → DiskSys β) : DiskSys β := fun w =>
  match m w with
  | (.ok a, w') => f a w'
  | (.error e, w') => (.error e, w')

instance : Monad DiskSys where
  pure a := fun w => (.ok a, w)
  bind := DiskSys.bind

/-- `std::process::exit`. -/
def exit {α : Type} (code : Nat) : DiskSys α := fun w => (.error (.exited code), w)

/-- Running a program: returning from `main` is exit status 0. -/
def run (m : DiskSys Unit) (w : DiskWorld) : Ended × DiskWorld :=
  match m w with
  | (.ok _, w') => (.exited 0, w')
  | (.error e, w') => (e, w')

/-- One operation: what it does if nothing special happens, if it fails, and if the process is killed during it. -/
def operation {α : Type} (normal : DiskWorld → α × DiskWorld) (failing : Nat → DiskWorld → α × DiskWorld)
    (killed : Nat → DiskWorld → DiskWorld) : DiskSys α := fun w =>
  match w.faults with
  | [] => let (a, w') := normal w; (.ok a, w')
  | .none :: fs => let (a, w') := normal { w with faults := fs }; (.ok a, w')
  | .fail n :: fs => let (a, w') := failing n { w with faults := fs }; (.ok a, w')
  | .kill n :: fs => (.error .killed, killed n { w with faults := fs })

/-- `File::open` and what reading the file will deliver. -/
def openFile (path : Path) : DiskSys (Option Reader) :=
  operation
    (fun w => (w.disk.contentAt path, w))
    (fun n w => ((w.disk.contentAt path).map fun r => ⟨r.data.take n, true⟩, w))
    (fun _ w => w)

/-- `File::create_new` and, with other permissions, the creation of a `TempFile`.  The new file. -/
def createNew (path : Path) (mode : Disk → Nat) : DiskSys (Option Nat) :=
  operation
    (fun w =>
      if (w.disk.name (w.disk.entry path)).isSome then (none, w)
      else (some w.disk.fresh, { w with disk := w.disk.add (w.disk.entry path) (mode w.disk) }))
    (fun _ w => (none, w))
    (fun _ w => w)

/-- `File::create`: the file is emptied, or created if there is none.  The file. -/
def create (path : Path) : DiskSys (Option Nat) :=
  operation
    (fun w =>
      match w.disk.follow path with
      | none => (none, w)
      | some i =>
        match w.disk.name i with
        | some (.file n) => (some n, { w with disk := w.disk.setContent n [] })
        | none => (some w.disk.fresh, { w with disk := w.disk.add i w.disk.newMode })
        | _ => (none, w))
    (fun _ w => (none, w))
    (fun _ w => w)

/-- Everything that is written to a file just created. -/
def writeFile {α : Type} (n : Nat) (m : WM α) : DiskSys (Outcome α) :=
  operation
    (fun w => (m.run.1, { w with disk := w.disk.setContent n m.run.2 }))
    (fun k w => ((m ⟨[], some k⟩).1, { w with disk := w.disk.setContent n (m ⟨[], some k⟩).2.out }))
    (fun k w => { w with disk := w.disk.setContent n (m.run.2.take k) })

/-- Both entries refer to the same file. -/
def sameFile : Option Name → Option Name → Bool
  | some (.file n), some (.file m) => n == m
  | _, _ => false

/-- `std::fs::rename`: whether it succeeded.  If both names refer to the same file nothing happens. -/
def rename (src dst : Path) : DiskSys Bool :=
  operation
    (fun w =>
      let s := w.disk.entry src
      let d := w.disk.entry dst
      if w.disk.name s = none ∨ w.disk.name d = some .dir then (false, w)
      else if s = d ∨ sameFile (w.disk.name s) (w.disk.name d) then (true, w)
      else (true, { w with disk := (w.disk.setName d (w.disk.name s)).setName s none }))
    (fun _ w => (false, w))
    (fun _ w => w)

/-- `std::fs::remove_file`: whether it succeeded. -/
def removeFile (path : Path) : DiskSys Bool :=
  operation
    (fun w =>
      let i := w.disk.entry path
      if w.disk.name i = none ∨ w.disk.name i = some .dir then (false, w)
      else (true, { w with disk := w.disk.setName i none }))
    (fun _ w => (false, w))
    (fun _ w => w)

/-- As `Sys.ofOutcome`. -/
def ofOutcome {α : Type} : Outcome α → DiskSys (Option α)
  | .ok a => pure (some a)
  | .ioErr => pure none
  | .panic => exit 101
  | .diverge => fun w => (.error .diverged, w)

end DiskSys

namespace OnDisk

open DiskSys

/-! ## pw_patch -/

/-- Dropping a `TempFile`. -/
def dropTemp (temp : Path) : DiskSys Unit := do
  let _ ← removeFile temp
  return ()

/-- pw_patch/src/main.rs:79-92 and 175-188. -/
def finishPatch {β : Type} (temp patchable : Path) : Outcome β → DiskSys Unit
  | .ok _ => do
    if ← rename temp patchable then dropTemp temp
    else exit 1
  | .ioErr => exit 1
  | .panic => do
    dropTemp temp
    exit 101
  | .diverge => fun w => (.error .diverged, w)

/-- pw_patch/src/main.rs:69-98 and 165-194: `TempFile::in_dir`, `File::create` on its path, `apply_into`. -/
def patchContent {β : Type} (temp patchable : Path) (m : WM β) : DiskSys Unit := do
  let some _ ← createNew temp Disk.tempMode | exit 1
  let some i ← create temp | exit 1
  finishPatch temp patchable (← writeFile i m)

/-- pw_patch/src/main.rs:52-99 and 148-195. -/
def patchFile {α β : Type} (temp patchable : Path) (read : Reader → Outcome α) (apply : α → WM β) : DiskSys Unit := do
  let some r ← openFile patchable | exit 1
  let some content ← ofOutcome (read r) | exit 1
  patchContent temp patchable (apply content)

/-- pw_patch/src/main.rs:111-121, 127-137, 207-217, 223-233. -/
def addFile {α : Type} (path : Path) (content : WM α) : DiskSys Unit := do
  let some i ← createNew path Disk.newMode | return ()
  let _ ← writeFile i content
  return ()

/-- pw_patch/src/main.rs:103-109, 139-145, 199-205, 235-241. -/
def deleteFile (path : Path) : DiskSys Unit := do
  if ← removeFile path then return ()
  else exit 1

/-- pw_patch/src/main.rs:51-244. -/
def applyDiff (p : Profile) (temp : Path) (reverse : Bool) : Diff → DiskSys Unit
  | .textChange d => patchFile temp d.beforePath readText (fun ls => applyInto p d.clumps ls reverse)
  | .textAdd d => if reverse then deleteFile d.path else addFile d.path d.writeInto
  | .textRemove d => if reverse then addFile d.path d.writeInto else deleteFile d.path
  | .byteChange d => patchFile temp d.beforePath readBytes (fun bs => byteApplyInto p d.clumps bs reverse)
  | .byteAdd d => if reverse then deleteFile d.path else addFile d.path d.writeInto
  | .byteRemove d => if reverse then addFile d.path d.writeInto else deleteFile d.path

/-- pw_patch/src/main.rs:25-245. -/
def pwPatch (p : Profile) (temp patch : Path) (reverse : Bool) : DiskSys Unit := do
  let some r ← openFile patch | exit 1
  let some d ← ofOutcome (Diff.fromReader r) | exit 1
  applyDiff p temp reverse d

end OnDisk

end PwDiff
