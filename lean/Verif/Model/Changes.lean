import Verif.Model.Sequence

/-! # `pw_diff_lib/src/changes.rs` -/

namespace PwDiff

variable {T : Type}

/-- changes.rs:15-20 `enum Change`. -/
inductive Change where
  | noChange (c : CommonSubsequence)
  | delete (before : Range) (afterStart : Nat)
  | insert (beforeStart : Nat) (after : Range)
  | replace (before after : Range)
deriving DecidableEq, Repr

/-- changes.rs:22-68 `trait ChangeBasics`: the methods an implementor may override.
(`before_length` has a default implementation, `defaultBeforeLength`, which `UnifiedDiffClump` overrides.) -/
class ChangeBasics (C : Type) where
  beforeStart : C → Bool → Nat
  beforeEnd : Profile → C → Bool → Outcome Nat
  beforeLength : Profile → C → Bool → Outcome Nat

namespace ChangeBasics

variable {C : Type} [ChangeBasics C]

/-- changes.rs:26-28 default `before_length`. -/
def defaultBeforeLength (p : Profile) (start : Nat) (fin : Outcome Nat) : Outcome Nat := do
  let e ← fin
  usub p e start

/-- changes.rs:30-39 `before_range`. -/
def beforeRange (p : Profile) (c : C) (reductions : Option (Nat × Nat)) (reverse : Bool) : Outcome Range :=
  match reductions with
  | some (r0, r1) => do
    let s ← uadd p (beforeStart c reverse) r0
    let e ← beforeEnd p c reverse
    let e' ← usub p e r1
    return ⟨s, e'⟩
  | none => do
    let e ← beforeEnd p c reverse
    return ⟨beforeStart c reverse, e⟩

/-- changes.rs:40-47 `my_before_range`. -/
def myBeforeRange (p : Profile) (c : C) (reductions : Option (Nat × Nat)) (reverse : Bool) : Outcome Range := do
  let length ← beforeLength p c reverse
  match reductions with
  | some (r0, r1) => do
    let e ← usub p length r1
    return ⟨r0, e⟩
  | none => return ⟨0, length⟩

/-- changes.rs:49-51 `after_start`. -/
def afterStart (c : C) (reverse : Bool) : Nat := beforeStart c (!reverse)
/-- changes.rs:53-55 `after_end`. -/
def afterEnd (p : Profile) (c : C) (reverse : Bool) : Outcome Nat := beforeEnd p c (!reverse)
/-- changes.rs:57-59 `after_length`. -/
def afterLength (p : Profile) (c : C) (reverse : Bool) : Outcome Nat := beforeLength p c (!reverse)
/-- changes.rs:61-63 `after_range`. -/
def afterRange (p : Profile) (c : C) (reductions : Option (Nat × Nat)) (reverse : Bool) : Outcome Range :=
  beforeRange p c reductions (!reverse)
/-- changes.rs:65-67 `my_after_range`. -/
def myAfterRange (p : Profile) (c : C) (reductions : Option (Nat × Nat)) (reverse : Bool) : Outcome Range :=
  myBeforeRange p c reductions (!reverse)

end ChangeBasics

namespace Change

/-- changes.rs:71-87 `before_start`. -/
def beforeStart (c : Change) (reverse : Bool) : Nat :=
  if reverse then
    match c with
    | noChange cs => cs.afterStart
    | delete _ start => start
    | insert _ afterRange => afterRange.start
    | replace _ afterRange => afterRange.start
  else
    match c with
    | noChange cs => cs.beforeStart
    | delete beforeRange _ => beforeRange.start
    | insert start _ => start
    | replace beforeRange _ => beforeRange.start

/-- changes.rs:89-105 `before_end`. -/
def beforeEnd (c : Change) (reverse : Bool) : Nat :=
  if reverse then
    match c with
    | noChange cs => cs.afterEnd
    | delete _ fin => fin
    | insert _ afterRange => afterRange.fin
    | replace _ afterRange => afterRange.fin
  else
    match c with
    | noChange cs => cs.beforeEnd
    | delete beforeRange _ => beforeRange.fin
    | insert fin _ => fin
    | replace beforeRange _ => beforeRange.fin

instance : ChangeBasics Change where
  beforeStart := beforeStart
  beforeEnd _ c r := .ok (beforeEnd c r)
  beforeLength p c r := ChangeBasics.defaultBeforeLength p (beforeStart c r) (.ok (beforeEnd c r))

/-- Is this change a `NoChange`? -/
def isNoChange : Change → Bool
  | noChange _ => true
  | _ => false

end Change

/-! ## The change generator -/

/-- `HashMap<isize, usize>` (changes.rs:147), as its lookup function. -/
abbrev JMap := Int → Option Nat

/-- `HashMap::insert`. -/
def JMap.insert (m : JMap) (j : Int) (k : Nat) : JMap := fun x => if x = j then some k else m x

/-- changes.rs:160-163: the `k` of index `j`. -/
def kOf (m : JMap) (j : Nat) : Nat :=
  match m ((j : Int) - 1) with
  | some k => k + 1
  | none => 1

/-- changes.rs:152-168: the inner loop over the indices `j` of the current item. -/
def lcsInner (p : Profile) (beforeRange : Range) (index : Nat) (jToLen : JMap) :
    List Nat → JMap → CommonSubsequence → Outcome (JMap × CommonSubsequence)
  | [], newJToLen, best => .ok (newJToLen, best)
  | j :: js, newJToLen, best =>
    if j < beforeRange.start then lcsInner p beforeRange index jToLen js newJToLen best
    else if j ≥ beforeRange.fin then .ok (newJToLen, best)
    else
      let k := kOf jToLen j
      let new' := newJToLen.insert j k
      if k > best.len then do
        let b ← usub p (j + 1) k
        let a ← usub p (index + 1) k
        lcsInner p beforeRange index jToLen js new' ⟨b, a, k⟩
      else lcsInner p beforeRange index jToLen js new' best

/-- changes.rs:148-171: the outer loop over the items of the after range; `index` is `i + after_range.start()`. -/
def lcsOuter (p : Profile) (indices : Indices T) (beforeRange : Range) :
    List T → Nat → JMap → CommonSubsequence → Outcome CommonSubsequence
  | [], _, _, best => .ok best
  | item :: rest, index, jToLen, best =>
    match indices item with
    | some is => do
      let (new', best') ← lcsInner p beforeRange index jToLen is (fun _ => none) best
      lcsOuter p indices beforeRange rest (index + 1) new' best'
    | none => lcsOuter p indices beforeRange rest (index + 1) (fun _ => none) best

/-- `.zip(..).take_while(|(a, b)| a == b).count()` (changes.rs:180-186, 199-204). -/
def matchCount [DecidableEq T] (xs ys : List T) : Nat :=
  ((xs.zip ys).takeWhile (fun (a, b) => a == b)).length

/-- changes.rs:140-210 `ChangesGenerator::longest_common_subsequence`. -/
def longestCommonSubsequence [DecidableEq T] (p : Profile) (before after : List T) (indices : Indices T)
    (beforeRange afterRange : Range) : Outcome (Option CommonSubsequence) := do
  let items ← subsequence after afterRange
  let best ← lcsOuter p indices beforeRange items afterRange.start (fun _ => none) CommonSubsequence.default
  if best.isEmpty then return none
  else do
    let xs ← subsequence before ⟨beforeRange.start, best.beforeStart⟩
    let ys ← subsequence after ⟨afterRange.start, best.afterStart⟩
    let count := matchCount xs.reverse ys.reverse
    let best ← best.incrSizeMovingStarts p (min (min count best.beforeStart) best.afterStart)
    if best.beforeEnd + 1 < beforeRange.fin ∧ best.afterEnd + 1 < afterRange.fin then do
      let xs ← subsequence before ⟨best.beforeEnd + 1, beforeRange.fin⟩
      let ys ← subsequence after ⟨best.afterEnd + 1, afterRange.fin⟩
      return some (best.incrSizeMovingEnds (matchCount xs ys))
    else return some best

/-- changes.rs:215-233: the work list loop.  `lifo` is the stack, top first; `raw` is `raw_lcses`. -/
def lcsesLoop [DecidableEq T] (p : Profile) (before after : List T) (indices : Indices T) :
    Nat → List (Range × Range) → List CommonSubsequence → Outcome (List CommonSubsequence)
  | _, [], raw => .ok raw
  | 0, _ :: _, _ => .diverge
  | fuel + 1, (br, ar) :: lifo, raw => do
    let r ← longestCommonSubsequence p before after indices br ar
    match r with
    | some lcs =>
      let lifo :=
        if br.start < lcs.beforeStart ∧ ar.start < lcs.afterStart then
          ((⟨br.start, lcs.beforeStart⟩, ⟨ar.start, lcs.afterStart⟩) : Range × Range) :: lifo
        else lifo
      let lifo :=
        if lcs.beforeEnd < br.fin ∧ lcs.afterEnd < ar.fin then
          ((⟨lcs.beforeEnd, br.fin⟩, ⟨lcs.afterEnd, ar.fin⟩) : Range × Range) :: lifo
        else lifo
      lcsesLoop p before after indices fuel lifo (raw ++ [lcs])
    | none => lcsesLoop p before after indices fuel lifo raw

/-- changes.rs:238-252: merging of adjacent blocks; the two nested index loops become a recursion that carries
`new_lcs`. -/
def mergeFrom (newLcs : CommonSubsequence) : List CommonSubsequence → List CommonSubsequence
  | [] => [newLcs]
  | lcs :: rest =>
    if newLcs.beforeEnd = lcs.beforeStart ∧ newLcs.afterEnd = lcs.afterStart then
      mergeFrom (newLcs.incrSizeMovingEnds lcs.len) rest
    else newLcs :: mergeFrom lcs rest

/-- changes.rs:236-254. -/
def mergeAdjacent : List CommonSubsequence → List CommonSubsequence
  | [] => []
  | lcs :: rest => mergeFrom lcs rest

/-- Bound on the number of iterations of the work list loop (shown to suffice by `lcsesLoop_ok`). -/
def lcsesFuel (before : List T) : Nat := 2 * before.length + 1

/-- changes.rs:212-255 `longest_common_subsequences`, with the parallel sort as a parameter. -/
def longestCommonSubsequencesWith [DecidableEq T] (sort : List CommonSubsequence → List CommonSubsequence)
    (p : Profile) (before after : List T) (indices : Indices T) : Outcome (List CommonSubsequence) := do
  let raw ← lcsesLoop p before after indices (lcsesFuel before) [(rangeFrom before 0, rangeFrom after 0)] []
  return mergeAdjacent (sort raw)

/-- Insertion into an ordered list. -/
def insertLcs (x : CommonSubsequence) : List CommonSubsequence → List CommonSubsequence
  | [] => [x]
  | y :: ys => if x.le y then x :: y :: ys else y :: insertLcs x ys

/-- A sequential stand-in for rayon's `par_sort` (changes.rs:234): insertion sort.  `C18_sort_schedule` shows that any
other correct sort gives the same change list. -/
def sortLcses : List CommonSubsequence → List CommonSubsequence
  | [] => []
  | x :: xs => insertLcs x (sortLcses xs)

/-- changes.rs:286-301: the change, if any, that precedes a common block when `i`, `j` items have been covered. -/
def gapChange (i j : Nat) (lcs : CommonSubsequence) : List Change :=
  if i < lcs.beforeStart ∧ j < lcs.afterStart then
    [.replace ⟨i, lcs.beforeStart⟩ ⟨j, lcs.afterStart⟩]
  else if i < lcs.beforeStart then [.delete ⟨i, lcs.beforeStart⟩ lcs.afterStart]
  else if j < lcs.afterStart then [.insert lcs.beforeStart ⟨j, lcs.afterStart⟩]
  else []

/-- changes.rs:306-321: the change, if any, after the last common block. -/
def finalChange (before after : List T) (i j : Nat) : List Change :=
  if i < before.length ∧ j < after.length then [.replace (rangeFrom before i) (rangeFrom after j)]
  else if i < before.length then [.delete (rangeFrom before i) after.length]
  else if j < after.length then [.insert before.length (rangeFrom after j)]
  else []

/-- changes.rs:285-323: the loop of `generate`. -/
def generateLoop (before after : List T) : List CommonSubsequence → Nat → Nat → List Change → List Change
  | [], i, j, changes => changes ++ finalChange before after i j
  | lcs :: rest, i, j, changes =>
    generateLoop before after rest lcs.beforeEnd lcs.afterEnd (changes ++ gapChange i j lcs ++ [.noChange lcs])

/-- changes.rs:280-324 `generate`, with the parallel sort as a parameter. -/
def generateWith [DecidableEq T] (sort : List CommonSubsequence → List CommonSubsequence)
    (p : Profile) (before after : List T) (indices : Indices T) : Outcome (List Change) := do
  let lcses ← longestCommonSubsequencesWith sort p before after indices
  return generateLoop before after lcses 0 0 []

/-- changes.rs:334-355 `Changes::<String>::new` / `Changes::<u8>::new`: the `changes` field
(`before` and `after` are kept alongside). -/
def changesOf [DecidableEq T] [Item T] (p : Profile) (before after : List T) : Outcome (List Change) :=
  generateWith sortLcses p before after (Item.generateFrom before)

/-! ## Clumps -/

/-- changes.rs:358-362 `struct ChangeClump`: here only its `changes`; `before` and `after` are always the sequences
of the `Changes` it was made from. -/
structure ChangeClump where
  changes : List Change
deriving DecidableEq, Repr

namespace ChangeClump

/-- changes.rs:379-385 `before_start`. -/
def beforeStart (c : ChangeClump) (reverse : Bool) : Nat :=
  match c.changes.head? with
  | some ch => ch.beforeStart reverse
  | none => 0

/-- changes.rs:387-393 `before_end` (it looks at the *first* change). -/
def beforeEnd (c : ChangeClump) (reverse : Bool) : Nat :=
  match c.changes.head? with
  | some ch => ch.beforeEnd reverse
  | none => 0

instance : ChangeBasics ChangeClump where
  beforeStart := beforeStart
  beforeEnd _ c r := .ok (beforeEnd c r)
  beforeLength p c r := ChangeBasics.defaultBeforeLength p (beforeStart c r) (.ok (beforeEnd c r))

/-- changes.rs:397-409 `starts`. -/
def starts (c : ChangeClump) : Nat × Nat :=
  match c.changes.head? with
  | some (.delete range afterStart) => (range.start, afterStart)
  | some (.noChange m) => (m.beforeStart, m.afterStart)
  | some (.insert beforeStart afterRange) => (beforeStart, afterRange.start)
  | some (.replace beforeRange afterRange) => (beforeRange.start, afterRange.start)
  | none => (0, 0)

/-- changes.rs:411-423 `ends`. -/
def ends (c : ChangeClump) : Nat × Nat :=
  match c.changes.getLast? with
  | some (.delete range afterStart) => (range.fin, afterStart)
  | some (.noChange m) => (m.beforeEnd, m.afterEnd)
  | some (.insert beforeStart afterRange) => (beforeStart, afterRange.fin)
  | some (.replace beforeRange afterRange) => (beforeRange.fin, afterRange.fin)
  | none => (0, 0)

/-- changes.rs:425-433 `ranges`. -/
def ranges (c : ChangeClump) : Range × Range :=
  (⟨c.starts.1, c.ends.1⟩, ⟨c.starts.2, c.ends.2⟩)

/-- The length of a `NoChange`, 0 for anything else (changes.rs:437-452). -/
def contextOf : Option Change → Nat
  | some (.noChange m) => m.len
  | _ => 0

/-- changes.rs:435-454 `context_lengths`; `as u8` keeps the low eight bits. -/
def contextLengths (c : ChangeClump) : Nat × Nat :=
  (contextOf c.changes.head? % 256, contextOf c.changes.getLast? % 256)

end ChangeClump

/-- changes.rs:457-463 `struct ChangeClumpIter`: the not yet delivered changes and the stash. -/
structure ClumpIter where
  iter : List Change
  stash : Option CommonSubsequence
deriving DecidableEq, Repr

/-- changes.rs:475-497: the loop of `next`; the result is `changes` and the new state of the iterator. -/
def clumpLoop (context : Nat) : List Change → List Change → List Change × ClumpIter
  | [], changes => (changes, ⟨[], none⟩)
  | .noChange cs :: rest, changes =>
    if changes.isEmpty then
      if !rest.isEmpty then clumpLoop context rest (changes ++ [.noChange (cs.startsTrimmed context)])
      else clumpLoop context rest changes
    else if rest.isEmpty then (changes ++ [.noChange (cs.endsTrimmed context)], ⟨rest, none⟩)
    else match cs.split context with
      | some (head, tail) => (changes ++ [.noChange head], ⟨rest, some tail⟩)
      | none => clumpLoop context rest (changes ++ [.noChange cs])
  | change :: rest, changes => clumpLoop context rest (changes ++ [change])

/-- changes.rs:468-507 `ChangeClumpIter::next`. -/
def clumpNext (context : Nat) (s : ClumpIter) : Option ChangeClump × ClumpIter :=
  let initial := match s.stash with
    | some stashed => [Change.noChange stashed]
    | none => []
  let (changes, s') := clumpLoop context s.iter initial
  if changes.isEmpty then (none, s') else (some ⟨changes⟩, s')

/-- `.collect()` of the iterator. -/
def clumpCollect (context : Nat) : Nat → ClumpIter → Outcome (List ChangeClump)
  | 0, _ => .diverge
  | fuel + 1, s =>
    match clumpNext context s with
    | (none, _) => .ok []
    | (some c, s') => do
      let cs ← clumpCollect context fuel s'
      return c :: cs

/-- changes.rs:554-562 `change_clumps(context).collect()`; `context: u8`. -/
def changeClumps (context : Nat) (changes : List Change) : Outcome (List ChangeClump) :=
  clumpCollect context (changes.length + 1) ⟨changes, none⟩

end PwDiff
