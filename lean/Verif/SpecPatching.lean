import Verif.Spec

/-! # What applying a text patch means

A description of patching as a relation between a file, a patch and the result, in terms of where the old and new lines
of the clumps stand in the file.  `C57_refines` shows that `apply_into` follows it exactly; the properties of
`apply_into` are then consequences. -/

namespace PwDiff

variable {T : Type}

/-- What is decided about a clump: apply it at displacement `d` from the current offset, regard it as already applied
there, or give up. -/
inductive Decision where
  | apply (d : Int) (w : WillApply)
  | already (d : Int) (w : WillApply)
  | failed
deriving DecidableEq, Repr

/-- The reductions of a match (none for a clean one). -/
def WillApply.redn : WillApply → Nat × Nat
  | .cleanly => (0, 0)
  | .withReductions r => r

/-- The number of lines of a side of a clump that are not context. -/
def coreLen (ctx : Nat × Nat) (side : Snippet T) : Nat := side.items.length - ctx.1 - ctx.2

/-- Where the search for a place of `side` has to stop, as computed from the next clump (its side `next`) or, for the
last clump, from the length of the file; before the length of the core is taken off. -/
def searchRoom (l : List T) (ctx : Nat × Nat) (next : Option (Snippet T)) (offset : Int) : Int :=
  match next with
  | some n => n.start + offset + ctx.1
  | none => l.length

/-- The (exclusive) upper limit of the search. -/
def searchLimit (l : List T) (ctx : Nat × Nat) (side : Snippet T) (next : Option (Snippet T)) (offset : Int) : Int :=
  searchRoom l ctx next offset - coreLen ctx side

/-- The computation of the limit underflows. -/
def Underflow (l : List T) (ctx : Nat × Nat) (side : Snippet T) (next : Option (Snippet T)) (offset : Int) : Prop :=
  0 ≤ searchRoom l ctx next offset ∧ searchRoom l ctx next offset < coreLen ctx side

/-- The result `r` of searching the neighbourhood of the expected place for `side`, when `k` lines of the file are
already dealt with. -/
def Searched (l : List T) (k : Nat) (offset : Int) (ctx : Nat × Nat) (side : Snippet T) (next : Option (Snippet T))
    (r : Option (Int × WillApply)) : Prop :=
  Nearest side.items ctx l (side.start + offset) k (searchLimit l ctx side next offset) r

/-- The old (resp. new) side fits at the expected place. -/
def FitsHere (l : List T) (offset : Int) (ctx : Nat × Nat) (side : Snippet T) (r : Option WillApply) : Prop :=
  Fits side.items ctx l (side.start + offset) r

/-- The decision about a clump `c` followed by clump `next`. -/
def Decides (p : Profile) (l : List T) (k : Nat) (offset : Int) (c : DiffClump T) (next : Option (DiffClump T)) : Decision → Prop
  | .apply d w =>
    (d = 0 ∧ FitsHere l offset c.contextLengths c.before (some w)) ∨
    (FitsHere l offset c.contextLengths c.before none ∧
      ¬ (p = .debug ∧ Underflow l c.contextLengths c.before (next.map DiffClump.before) offset) ∧
      Searched l k offset c.contextLengths c.before (next.map DiffClump.before) (some (d, w)))
  | .already d w =>
    FitsHere l offset c.contextLengths c.before none ∧
    ¬ (p = .debug ∧ Underflow l c.contextLengths c.before (next.map DiffClump.before) offset) ∧
    Searched l k offset c.contextLengths c.before (next.map DiffClump.before) none ∧
    ((d = 0 ∧ FitsHere l offset c.contextLengths c.after (some w)) ∨
     (FitsHere l offset c.contextLengths c.after none ∧
       ¬ (p = .debug ∧ Underflow l c.contextLengths c.after (next.map DiffClump.after) offset) ∧
       Searched l k offset c.contextLengths c.after (next.map DiffClump.after) (some (d, w))))
  | .failed =>
    FitsHere l offset c.contextLengths c.before none ∧
    ¬ (p = .debug ∧ Underflow l c.contextLengths c.before (next.map DiffClump.before) offset) ∧
    Searched l k offset c.contextLengths c.before (next.map DiffClump.before) none ∧
    FitsHere l offset c.contextLengths c.after none ∧
    ¬ (p = .debug ∧ Underflow l c.contextLengths c.after (next.map DiffClump.after) offset) ∧
    Searched l k offset c.contextLengths c.after (next.map DiffClump.after) none

/-- No decision is reached: the computation of a search limit underflows (debug builds only). -/
def Crashes (p : Profile) (l : List T) (k : Nat) (offset : Int) (c : DiffClump T) (next : Option (DiffClump T)) : Prop :=
  p = .debug ∧ FitsHere l offset c.contextLengths c.before none ∧
    (Underflow l c.contextLengths c.before (next.map DiffClump.before) offset ∨
     (¬ Underflow l c.contextLengths c.before (next.map DiffClump.before) offset ∧
      Searched l k offset c.contextLengths c.before (next.map DiffClump.before) none ∧
      FitsHere l offset c.contextLengths c.after none ∧
      Underflow l c.contextLengths c.after (next.map DiffClump.after) offset))

/-- The new lines written for a match: all of them for a clean match; with reductions the lines at *file* positions,
and nothing but a panic if those do not lie in the clump. -/
def writtenFor (new : Snippet T) : WillApply → Option (List T)
  | .cleanly => some new.items
  | .withReductions r =>
    if new.start ≤ r.2 then some (cut new.items (new.start + r.1) (new.start + new.items.length - r.2)) else none

/-- The place of a match in the file. -/
def placeOf (side : Snippet T) (offset : Int) (w : WillApply) : Nat := (side.start + offset + w.redn.1).toNat

/-- The number of lines a match covers. -/
def coveredBy (side : Snippet T) (w : WillApply) : Nat := side.items.length - w.redn.1 - w.redn.2

/-- How a decision is counted. -/
def Decision.count (st : Statistics) : Decision → Statistics
  | .apply d w => if d = 0 ∧ w = .cleanly then { st with clean := st.clean + 1 } else { st with fuzzy := st.fuzzy + 1 }
  | .already d w =>
    if d = 0 ∧ w = .cleanly then { st with alreadyApplied := st.alreadyApplied + 1 }
    else { st with alreadyAppliedFuzzy := st.alreadyAppliedFuzzy + 1 }
  | .failed => { st with failed := st.failed + 1 }

/-- A marker line: seven times the same (ASCII) character. -/
def markerLine (c : Char) : List UInt8 := List.replicate 7 c.toNat.toUInt8 ++ ['\n'.toNat.toUInt8]

/-- The bytes of a conflict block. -/
def conflict [Item T] (old new : List T) : List UInt8 :=
  markerLine '<' ++ bytesOf old ++ markerLine '=' ++ bytesOf new ++ markerLine '>'

/-- Patching file `l` with the clumps, when `k` lines are dealt with, the offset is `offset` and the statistics are `st`:
what is written and how it ends. -/
inductive Patching [Item T] (p : Profile) (l : List T) :
    Nat → Int → Statistics → List (DiffClump T) → List UInt8 → Outcome Statistics → Prop
  | finish {k offset st} : k ≤ l.length → Patching p l k offset st [] (bytesOf (cut l k l.length)) (.ok st)
  | overrun {k offset st} : l.length < k → Patching p l k offset st [] [] .panic
  | crash {k offset st c cs} : Crashes p l k offset c cs.head? → Patching p l k offset st (c :: cs) [] .panic
  | apply {k offset st c cs d w ls out r} :
      Decides p l k offset c cs.head? (.apply d w) →
      writtenFor c.after w = some ls →
      Patching p l (max k (placeOf c.before (offset + d) w) + coveredBy c.before w) (offset + d)
        (Decision.count st (.apply d w)) cs out r →
      Patching p l k offset st (c :: cs)
        (bytesOf (cut l k (placeOf c.before (offset + d) w)) ++ bytesOf ls ++ out) r
  | applyPanic {k offset st c cs d w} :
      Decides p l k offset c cs.head? (.apply d w) →
      writtenFor c.after w = none →
      Patching p l k offset st (c :: cs) (bytesOf (cut l k (placeOf c.before (offset + d) w))) .panic
  | already {k offset st c cs d w out r} :
      Decides p l k offset c cs.head? (.already d w) →
      Patching p l (max k (placeOf c.after (offset + d) w + coveredBy c.after w)) (offset + d)
        (Decision.count st (.already d w)) cs out r →
      Patching p l k offset st (c :: cs)
        (bytesOf (cut l k (placeOf c.after (offset + d) w + coveredBy c.after w)) ++ out) r
  | failed {k offset st c cs out r} :
      Decides p l k offset c cs.head? .failed →
      Patching p l k offset (Decision.count st .failed) cs out r →
      Patching p l k offset st (c :: cs) (conflict c.before.items c.after.items ++ out) r

/-- `out` is the text of `l` from line `k` on in which, in the order of the clumps, the old lines of a clump (without
some of its context) were replaced by its new lines (without the same context) where they stand, or nothing was changed, or
a conflict block was put in.  The lines of `l` that are not replaced are all there, in order. -/
inductive Spliced [Item T] (l : List T) : Nat → List (DiffClump T) → List UInt8 → Prop
  | rest {k} : Spliced l k [] (bytesOf (l.drop k))
  | replaced {k c cs out} (place : Nat) (r : Nat × Nat) : k ≤ place →
      r.1 ≤ c.contextLengths.1 → r.2 ≤ c.contextLengths.2 → StandsAt (trim r c.before.items) l place →
      Spliced l (place + (trim r c.before.items).length) cs out →
      Spliced l k (c :: cs) (bytesOf (cut l k place) ++ bytesOf (trim r c.after.items) ++ out)
  | copied {k c cs out} (place : Nat) : k ≤ place → Spliced l place cs out →
      Spliced l k (c :: cs) (bytesOf (cut l k place) ++ out)
  | marked {k c cs out} : Spliced l k cs out → Spliced l k (c :: cs) (conflict c.before.items c.after.items ++ out)

/-! ## Sizes -/

/-- A size far below the limits of the machine words. -/
abbrev sizeLimit : Nat := 2 ^ 60

/-- A clump whose context lengths fit into both sides, and whose numbers are not astronomically large. -/
structure DiffClump.WellFormed (c : DiffClump T) : Prop where
  ctxBefore : c.contextLengths.1 + c.contextLengths.2 ≤ c.before.items.length
  ctxAfter : c.contextLengths.1 + c.contextLengths.2 ≤ c.after.items.length
  sizeBefore : c.before.start + c.before.items.length < sizeLimit
  sizeAfter : c.after.start + c.after.items.length < sizeLimit

/-- The number of lines in the clumps. -/
def weight : List (DiffClump T) → Nat
  | [] => 0
  | c :: cs => c.before.items.length + c.after.items.length + weight cs

/-- The largest number of lines a `Seq<String>` can have: a Rust allocation is at most `isize::MAX` bytes and a `String`
takes 24 of them. -/
abbrev maxLines : Nat := 2 ^ 63 / 24

/-! ## Patched text -/

/-- From line `k` on, the old lines of the clumps stand in `l`, displaced by `d`, in order and without overlap. -/
def StandInOrder (l : List T) (d : Int) : Nat → List (DiffClump T) → Prop
  | k, [] => k ≤ l.length
  | k, c :: cs => (k : Int) ≤ c.before.start + d ∧ StandsAt c.before.items l (c.before.start + d) ∧
      StandInOrder l d ((c.before.start + d).toNat + c.before.items.length) cs

/-- `l` from line `k` on with the old lines of every clump, at its place displaced by `d`, replaced by its new lines. -/
def patchedFrom (l : List T) (d : Int) : Nat → List (DiffClump T) → List T
  | k, [] => l.drop k
  | k, c :: cs => cut l k (c.before.start + d).toNat ++ c.after.items ++
      patchedFrom l d ((c.before.start + d).toNat + c.before.items.length) cs

/-- The stretches of the two files a patch says nothing about, from `(i, j)` on. -/
def gaps (before : List T) : Nat → Nat → List (DiffClump T) → List CommonSubsequence
  | i, j, [] => [⟨i, j, before.length - i⟩]
  | i, j, c :: cs => ⟨i, j, c.before.start - i⟩ ::
      gaps before (c.before.start + c.before.items.length) (c.after.start + c.after.items.length) cs

/-- Neither the lines nor any admissible trimming of them stand anywhere in `l`. -/
def NowhereFits (l : List T) (ctx : Nat × Nat) (side : Snippet T) : Prop := ∀ pos, Fits side.items ctx l pos none

/-- The search limits do not underflow at offset 0, for a choice of side. -/
def Roomy (l : List T) (side : DiffClump T → Snippet T) : List (DiffClump T) → Prop
  | [] => True
  | c :: cs => ¬ Underflow l c.contextLengths (side c) (cs.head?.map side) 0 ∧ Roomy l side cs

/-- The old lines of no clump are found where the program looks for them in the file the patch was made for: neither at the
place recorded in the patch nor, without some of the context if need be, between the end of the clump before (`k` lines) and the
limit of the search.  In a debug build the computation of that limit must not underflow. -/
def Unfound (p : Profile) (l : List T) : Nat → List (DiffClump T) → Prop
  | _, [] => True
  | k, c :: cs =>
    FitsHere l 0 c.contextLengths c.before none ∧
    ¬ (p = .debug ∧ Underflow l c.contextLengths c.before (cs.head?.map DiffClump.before) 0) ∧
    Searched l k 0 c.contextLengths c.before (cs.head?.map DiffClump.before) none ∧
    Unfound p l (c.after.start + c.after.items.length) cs

end PwDiff
