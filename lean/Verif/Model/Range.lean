import Verif.Model.Basic

/-! # `pw_diff_lib/src/range.rs` and `common_subsequence.rs` -/

namespace PwDiff

/-- range.rs:14 `struct Range(pub usize, pub usize)`. -/
structure Range where
  start : Nat
  fin : Nat
deriving DecidableEq, Repr

namespace Range

/-- range.rs:16-24 `Len for Range`: saturating length. -/
def len (r : Range) : Nat := if r.fin > r.start then r.fin - r.start else 0

/-- range.rs:8-10 `Len::is_empty`. -/
def isEmpty (r : Range) : Bool := r.len == 0

/-- range.rs:35-37 `is_valid`. -/
def isValid (r : Range) : Bool := r.start ≤ r.fin

/-- range.rs:39-41 `is_valid_for_max_end`. -/
def isValidForMaxEnd (r : Range) (maxEnd : Nat) : Bool := r.isValid && r.fin ≤ maxEnd

end Range

/-- common_subsequence.rs:7 `struct CommonSubsequence(pub usize, pub usize, pub usize)`:
start in before, start in after, length. -/
structure CommonSubsequence where
  b : Nat
  a : Nat
  n : Nat
deriving DecidableEq, Repr

namespace CommonSubsequence

/-- common_subsequence.rs:6 `Default`. -/
def default : CommonSubsequence := ⟨0, 0, 0⟩

/-- common_subsequence.rs:9-13 `Len`. -/
def len (c : CommonSubsequence) : Nat := c.n

/-- range.rs:8-10 `Len::is_empty`. -/
def isEmpty (c : CommonSubsequence) : Bool := c.n == 0

/-- common_subsequence.rs:16-18. -/
def beforeRange (c : CommonSubsequence) : Range := ⟨c.b, c.b + c.n⟩
/-- common_subsequence.rs:20-22. -/
def afterRange (c : CommonSubsequence) : Range := ⟨c.a, c.a + c.n⟩
/-- common_subsequence.rs:24-26. -/
def beforeStart (c : CommonSubsequence) : Nat := c.b
/-- common_subsequence.rs:28-30. -/
def afterStart (c : CommonSubsequence) : Nat := c.a
/-- common_subsequence.rs:32-34. -/
def beforeEnd (c : CommonSubsequence) : Nat := c.b + c.n
/-- common_subsequence.rs:36-38. -/
def afterEnd (c : CommonSubsequence) : Nat := c.a + c.n

/-- common_subsequence.rs:40-44 `incr_size_moving_starts` (`&mut self` becomes the returned value). -/
def incrSizeMovingStarts (p : Profile) (c : CommonSubsequence) (arg : Nat) : Outcome CommonSubsequence := do
  let b ← usub p c.b arg
  let a ← usub p c.a arg
  return ⟨b, a, c.n + arg⟩

/-- common_subsequence.rs:46-48 `incr_size_moving_ends`. -/
def incrSizeMovingEnds (c : CommonSubsequence) (increment : Nat) : CommonSubsequence :=
  { c with n := c.n + increment }

/-- common_subsequence.rs:50-57 `starts_trimmed`; `requested_size: u8`.
(The subtractions cannot underflow: `new_size ≤ self.2`.) -/
def startsTrimmed (c : CommonSubsequence) (requestedSize : Nat) : CommonSubsequence :=
  let newSize := min c.n requestedSize
  ⟨c.b + c.n - newSize, c.a + c.n - newSize, newSize⟩

/-- common_subsequence.rs:59-61 `ends_trimmed`. -/
def endsTrimmed (c : CommonSubsequence) (requestedSize : Nat) : CommonSubsequence :=
  ⟨c.b, c.a, min c.n requestedSize⟩

/-- common_subsequence.rs:63-72 `split`. -/
def split (c : CommonSubsequence) (requestedSize : Nat) : Option (CommonSubsequence × CommonSubsequence) :=
  if c.n ≥ requestedSize * 2 then some (c.endsTrimmed requestedSize, c.startsTrimmed requestedSize)
  else none

/-- common_subsequence.rs:6 derived `Ord`: lexicographic on the three fields. -/
def le (x y : CommonSubsequence) : Bool :=
  x.b < y.b || (x.b == y.b && (x.a < y.a || (x.a == y.a && x.n ≤ y.n)))

end CommonSubsequence

end PwDiff
