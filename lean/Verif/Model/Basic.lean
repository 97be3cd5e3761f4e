/-!
# Execution model: build profile, outcomes, machine arithmetic, writers

Nothing here models a particular file of the repository; it models the parts of the Rust language and
standard library the repository is written in.
-/

namespace PwDiff

/-- The two standard cargo build profiles.  `debug`: arithmetic overflow panics and `debug_assert!` is active.
`release`: arithmetic wraps and `debug_assert!` is compiled out. -/
inductive Profile where
  | debug
  | release
deriving DecidableEq, Repr

/-- How a modelled Rust computation ends: a value, an `io::Error` (`Err(_)`), or a panic.
`diverge` is not a Rust outcome: it is produced only if the fuel of a modelled loop runs out. -/
inductive Outcome (α : Type) where
  | ok (a : α)
  | ioErr
  | panic
  | diverge
deriving DecidableEq, Repr

namespace Outcome

/-- Sequencing (`?` and the propagation of panics). -/
def bind {α β : Type} : Outcome α → (α → Outcome β) → Outcome β
  | ok a, f => f a
  | ioErr, _ => ioErr
  | panic, _ => panic
  | diverge, _ => diverge

instance : Monad Outcome where
  pure := ok
  bind := Outcome.bind

@[simp] theorem pure_eq {α : Type} (a : α) : (pure a : Outcome α) = ok a := rfl
@[simp] theorem ok_bind {α β : Type} (a : α) (f : α → Outcome β) : (ok a >>= f) = f a := rfl
@[simp] theorem ioErr_bind {α β : Type} (f : α → Outcome β) : (ioErr >>= f) = ioErr := rfl
@[simp] theorem panic_bind {α β : Type} (f : α → Outcome β) : (panic >>= f) = panic := rfl
@[simp] theorem diverge_bind {α β : Type} (f : α → Outcome β) : (diverge >>= f) = diverge := rfl
@[simp] theorem map_ok {α β : Type} (f : α → β) (a : α) : (f <$> (ok a : Outcome α)) = ok (f a) := rfl

end Outcome

/-! ## Machine words (64-bit target) -/

/-- `usize::MAX + 1`. -/
abbrev wordSize : Nat := 2 ^ 64
/-- `isize::MAX + 1`. -/
abbrev halfWord : Nat := 2 ^ 63

/-- `a + b` on `usize`. -/
def uadd (p : Profile) (a b : Nat) : Outcome Nat :=
  if a + b < wordSize then .ok (a + b)
  else match p with
    | .debug => .panic
    | .release => .ok ((a + b) % wordSize)

/-- `a - b` on `usize`. -/
def usub (p : Profile) (a b : Nat) : Outcome Nat :=
  if b ≤ a then .ok (a - b)
  else match p with
    | .debug => .panic
    | .release => .ok ((wordSize + a - b) % wordSize)

/-- Reduction of an integer to the range of `isize` (two's complement). -/
def wrapI (i : Int) : Int := (i + halfWord) % wordSize - halfWord

/-- `a + b` on `isize`. -/
def iadd (p : Profile) (a b : Int) : Outcome Int :=
  if -(halfWord : Int) ≤ a + b ∧ a + b < halfWord then .ok (a + b)
  else match p with
    | .debug => .panic
    | .release => .ok (wrapI (a + b))

/-- `a as isize` for `a : usize`. -/
def asIsize (a : Nat) : Int := if a < halfWord then (a : Int) else (a : Int) - wordSize

/-- `i as usize` for `i : isize`. -/
def asUsize (i : Int) : Nat := if 0 ≤ i then i.toNat else (i + wordSize).toNat

/-- `debug_assert!(c)`. -/
def debugAssert (p : Profile) (c : Bool) : Outcome Unit :=
  match p with
  | .debug => if c then .ok () else .panic
  | .release => .ok ()

/-- `&l[a..b]`: panics if `a > b` or `b > l.len()`. -/
def slice {α : Type} (l : List α) (a b : Nat) : Outcome (List α) :=
  if a ≤ b ∧ b ≤ l.length then .ok ((l.drop a).take (b - a)) else .panic

/-- `&l[a..]`: panics if `a > l.len()`. -/
def sliceFrom {α : Type} (l : List α) (a : Nat) : Outcome (List α) :=
  if a ≤ l.length then .ok (l.drop a) else .panic

/-! ## Writers -/

/-- A `W: io::Write`: what has been written so far and how many more bytes it will accept before failing
(`none`: it never fails). -/
structure Writer where
  out : List UInt8
  room : Option Nat
deriving DecidableEq, Repr

/-- A computation that writes. -/
def WM (α : Type) : Type := Writer → Outcome α × Writer

namespace WM

def bind {α β : Type} (m : WM α) (f : α → WM β) : WM β := fun w =>
  match m w with
  | (.ok a, w') => f a w'
  | (.ioErr, w') => (.ioErr, w')
  | (.panic, w') => (.panic, w')
  | (.diverge, w') => (.diverge, w')

instance : Monad WM where
  pure a := fun w => (.ok a, w)
  bind := WM.bind

/-- A computation that does not write. -/
def lift {α : Type} (o : Outcome α) : WM α := fun w => (o, w)

instance : MonadLift Outcome WM where
  monadLift := WM.lift

end WM

/-- `io::Write::write_all(buf)`: writes everything, or writes a prefix and returns an error.
Writing an empty buffer always succeeds. -/
def writeAll (buf : List UInt8) : WM Unit := fun w =>
  match w.room with
  | none => (.ok (), { w with out := w.out ++ buf })
  | some r =>
    if buf.length ≤ r then (.ok (), { out := w.out ++ buf, room := some (r - buf.length) })
    else (.ioErr, { out := w.out ++ buf.take r, room := some 0 })

/-- Running on a fresh writer that never fails. -/
def WM.run {α : Type} (m : WM α) : Outcome α × List UInt8 :=
  let r := m ⟨[], none⟩
  (r.1, r.2.out)

/-! ## Items -/

/-- A Rust `String` is a sequence of Unicode scalar values. -/
abbrev Str := List Char

/-- `String::as_bytes`: the UTF-8 encoding. -/
def Str.bytes (s : Str) : List UInt8 := s.flatMap String.utf8EncodeChar

end PwDiff
