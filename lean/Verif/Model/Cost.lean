import Verif.Model.Changes

/-!
# The work of the search for common blocks

The functions of `Model/Changes` that search for common blocks (changes.rs:140-233) once more, each returning besides its result
the number of steps it took: one for every item of the after range looked up in the hash map (changes.rs:148), one for every
index in the list found there that the inner loop looks at (changes.rs:152), one for every pair of items compared while a block
is extended (changes.rs:177-186, 196-204), and one for every round of the work list (changes.rs:215).  `C115_same` shows
that the results are those of `Model/Changes`.  Not counted: making the index, sorting and merging the blocks.
-/

namespace PwDiff

variable {T : Type}

/-- changes.rs:152-168, counting the indices looked at. -/
def lcsInnerC (p : Profile) (beforeRange : Range) (index : Nat) (jToLen : JMap) :
    List Nat → JMap → CommonSubsequence → Nat → Outcome ((JMap × CommonSubsequence) × Nat)
  | [], newJToLen, best, n => .ok ((newJToLen, best), n)
  | j :: js, newJToLen, best, n =>
    if j < beforeRange.start then lcsInnerC p beforeRange index jToLen js newJToLen best (n + 1)
    else if j ≥ beforeRange.fin then .ok ((newJToLen, best), n + 1)
    else
      let k := kOf jToLen j
      let new' := newJToLen.insert j k
      if k > best.len then do
        let b ← usub p (j + 1) k
        let a ← usub p (index + 1) k
        lcsInnerC p beforeRange index jToLen js new' ⟨b, a, k⟩ (n + 1)
      else lcsInnerC p beforeRange index jToLen js new' best (n + 1)

/-- changes.rs:148-171, counting the items looked up and the indices looked at. -/
def lcsOuterC (p : Profile) (indices : Indices T) (beforeRange : Range) :
    List T → Nat → JMap → CommonSubsequence → Nat → Outcome (CommonSubsequence × Nat)
  | [], _, _, best, n => .ok (best, n)
  | item :: rest, index, jToLen, best, n =>
    match indices item with
    | some is => do
      let ((new', best'), n) ← lcsInnerC p beforeRange index jToLen is (fun _ => none) best (n + 1)
      lcsOuterC p indices beforeRange rest (index + 1) new' best' n
    | none => lcsOuterC p indices beforeRange rest (index + 1) (fun _ => none) best (n + 1)

/-- The pairs compared by `.zip(..).take_while(|(a, b)| a == b).count()`: the equal ones and the first other one. -/
def comparisons [DecidableEq T] : List T → List T → Nat
  | x :: xs, y :: ys => if x = y then comparisons xs ys + 1 else 1
  | _, _ => 0

/-- changes.rs:140-210, counting also the pairs compared. -/
def longestCommonSubsequenceC [DecidableEq T] (p : Profile) (before after : List T) (indices : Indices T)
    (beforeRange afterRange : Range) (n : Nat) : Outcome (Option CommonSubsequence × Nat) := do
  let items ← subsequence after afterRange
  let (best, n) ← lcsOuterC p indices beforeRange items afterRange.start (fun _ => none) CommonSubsequence.default n
  if best.isEmpty then return (none, n)
  else do
    let xs ← subsequence before ⟨beforeRange.start, best.beforeStart⟩
    let ys ← subsequence after ⟨afterRange.start, best.afterStart⟩
    let count := matchCount xs.reverse ys.reverse
    let n := n + comparisons xs.reverse ys.reverse
    let best ← best.incrSizeMovingStarts p (min (min count best.beforeStart) best.afterStart)
    if best.beforeEnd + 1 < beforeRange.fin ∧ best.afterEnd + 1 < afterRange.fin then do
      let xs ← subsequence before ⟨best.beforeEnd + 1, beforeRange.fin⟩
      let ys ← subsequence after ⟨best.afterEnd + 1, afterRange.fin⟩
      return (some (best.incrSizeMovingEnds (matchCount xs ys)), n + comparisons xs ys)
    else return (some best, n)

/-- changes.rs:215-233, counting also the rounds. -/
def lcsesLoopC [DecidableEq T] (p : Profile) (before after : List T) (indices : Indices T) :
    Nat → List (Range × Range) → List CommonSubsequence → Nat → Outcome (List CommonSubsequence × Nat)
  | _, [], raw, n => .ok (raw, n)
  | 0, _ :: _, _, _ => .diverge
  | fuel + 1, (br, ar) :: lifo, raw, n => do
    let (r, n) ← longestCommonSubsequenceC p before after indices br ar (n + 1)
    match r with
    | some lcs =>
      let lifo :=
        if br.start < lcs.beforeStart ∧ ar.start < lcs.afterStart then
          ((⟨br.start, lcs.beforeStart⟩, ⟨ar.start, lcs.afterStart⟩) : Range × Range) :: lifo
        else lifo
      let lifo :=
        if lcs.beforeEnd < br.fin ∧ lcs.afterEnd < ar.fin then
          ((⟨lcs.beforeEnd, br.fin⟩, ⟨lcs.afterEnd, ar.fin⟩) : Range × Range) :: lifo
        else lifo
      lcsesLoopC p before after indices fuel lifo (raw ++ [lcs]) n
    | none => lcsesLoopC p before after indices fuel lifo raw n

/-- changes.rs:334-355 `Changes::new`, and the number of steps its search for common blocks takes. -/
def changesOfC [DecidableEq T] [Item T] (p : Profile) (before after : List T) : Outcome (List Change × Nat) := do
  let (raw, n) ← lcsesLoopC p before after (Item.generateFrom before) (lcsesFuel before)
    [(rangeFrom before 0, rangeFrom after 0)] [] 0
  return (generateLoop before after (mergeAdjacent (sortLcses raw)) 0 0 [], n)

end PwDiff
