import Verif.SpecPatching
import Verif.Model.ApplyBytes

/-! # What applying a byte patch does, in words independent of the code -/

namespace PwDiff

/-- A side of a byte clump is found in `l`: its bytes stand at its recorded place, which is a position *before* the end
of `l`. -/
def FoundIn (l : List UInt8) (s : Snippet UInt8) : Prop := s.start < l.length ∧ StandsAt s.items l s.start

/-- Applying byte clumps to `l` when the first `k` bytes are dealt with: what is written and how it ends.  There is no
search and no fuzz, and a clump found on neither side is passed over without a trace. -/
inductive BytePatching (l : List UInt8) : Nat → List (DiffClump UInt8) → List UInt8 → Outcome Unit → Prop
  | finish {k} : k ≤ l.length → BytePatching l k [] (l.drop k) (.ok ())
  | overrun {k} : l.length < k → BytePatching l k [] [] .panic
  | apply {k c cs out r} : FoundIn l c.before →
      BytePatching l (max k c.before.start + c.before.items.length) cs out r →
      BytePatching l k (c :: cs) (cut l k c.before.start ++ c.after.items ++ out) r
  | already {k c cs out r} : ¬ FoundIn l c.before → FoundIn l c.after →
      BytePatching l (max k (c.after.start + c.after.items.length)) cs out r →
      BytePatching l k (c :: cs) (cut l k (c.after.start + c.after.items.length) ++ out) r
  | skip {k c cs out r} : ¬ FoundIn l c.before → ¬ FoundIn l c.after →
      BytePatching l k cs out r → BytePatching l k (c :: cs) out r

/-- `out` is the content of `l` from byte `k` on in which, in the order of the clumps, the old bytes of a clump were replaced
by its new ones where they stand, or nothing was changed.  The bytes of `l` that are not replaced are all there, in order. -/
inductive ByteSpliced (l : List UInt8) : Nat → List (DiffClump UInt8) → List UInt8 → Prop
  | rest {k} : ByteSpliced l k [] (l.drop k)
  | replaced {k c cs out} : k ≤ c.before.start → StandsAt c.before.items l c.before.start →
      ByteSpliced l (c.before.start + c.before.items.length) cs out →
      ByteSpliced l k (c :: cs) (cut l k c.before.start ++ c.after.items ++ out)
  | unchanged {k c cs out} : ByteSpliced l k cs out → ByteSpliced l k (c :: cs) out

end PwDiff
