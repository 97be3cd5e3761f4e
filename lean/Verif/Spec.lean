import Verif.Model.ApplyText

/-! # Small specifications shared by the property statements

Nothing here is taken from the code; these are the words the properties are stated in. -/

namespace PwDiff

variable {T : Type}

/-- The items of `l` at positions `a .. b`. -/
def cut (l : List T) (a b : Nat) : List T := (l.drop a).take (b - a)

/-- The bytes of a sequence of items. -/
def bytesOf [Item T] (l : List T) : List UInt8 := l.flatMap Item.bytes

/-- The positions at which `x` stands in `l`, in increasing order. -/
def positions [DecidableEq T] (l : List T) (x : T) : List Nat :=
  (List.range l.length).filter (fun i => l[i]? == some x)

/-- Position `j` of `before` and position `i` of `after` exist and hold the same item. -/
def Hit (before after : List T) (j i : Nat) : Prop := ∃ x, before[j]? = some x ∧ after[i]? = some x

/-- `n` consecutive items from `b` in `before` and from `a` in `after` exist and are equal. -/
def CommonRun (before after : List T) (b a n : Nat) : Prop := ∀ t < n, Hit before after (b + t) (a + t)

/-- A range that lies inside a sequence. -/
def Range.Inside (r : Range) (l : List T) : Prop := r.start ≤ r.fin ∧ r.fin ≤ l.length

instance (r : Range) (l : List T) : Decidable (r.Inside l) := inferInstanceAs (Decidable (_ ∧ _))

/-! ## Change lists -/

/-- The part of the old sequence a change is about. -/
def Change.old : Change → Range
  | .noChange c => ⟨c.b, c.b + c.n⟩
  | .delete r _ => r
  | .insert s _ => ⟨s, s⟩
  | .replace r _ => r

/-- The part of the new sequence a change is about. -/
def Change.new : Change → Range
  | .noChange c => ⟨c.a, c.a + c.n⟩
  | .delete _ s => ⟨s, s⟩
  | .insert _ r => r
  | .replace _ r => r

/-- The changes cover the old sequence from `i` to `ie` and the new one from `j` to `je`, in order, without gap or
overlap. -/
def Tiles : Nat → Nat → List Change → Nat → Nat → Prop
  | i, j, [], ie, je => i = ie ∧ j = je
  | i, j, c :: cs, ie, je =>
    c.old.start = i ∧ c.new.start = j ∧ c.old.start ≤ c.old.fin ∧ c.new.start ≤ c.new.fin ∧
      Tiles c.old.fin c.new.fin cs ie je

/-- A change that is not empty on the side(s) it affects. -/
def Change.Proper : Change → Prop
  | .noChange c => 0 < c.n
  | .delete r _ => r.start < r.fin
  | .insert _ r => r.start < r.fin
  | .replace r s => r.start < r.fin ∧ s.start < s.fin

/-- Of any two neighbours exactly one is a `NoChange`. -/
def Alternating : List Change → Prop
  | [] => True
  | [_] => True
  | c :: d :: cs => c.isNoChange ≠ d.isNoChange ∧ Alternating (d :: cs)

/-- Replaying a change list on the old sequence: unchanged blocks are copied from the old sequence, inserted and
replacing items are taken from the new one. -/
def replay (before after : List T) : List Change → List T
  | [] => []
  | .noChange c :: cs => cut before c.b (c.b + c.n) ++ replay before after cs
  | .delete _ _ :: cs => replay before after cs
  | .insert _ r :: cs => cut after r.start r.fin ++ replay before after cs
  | .replace _ r :: cs => cut after r.start r.fin ++ replay before after cs

/-- The inputs contain no single differing pair of items between two equal pairs (on the same diagonal). -/
def NoIsland (before after : List T) : Prop :=
  ∀ j i, Hit before after j i → Hit before after (j + 2) (i + 2) → Hit before after (j + 1) (i + 1)

/-! ## Blocks of unchanged items -/

/-- Of the common runs that lie inside the two ranges this is a longest one; of the longest ones it is the first in
`after`, and of those the first in `before`. -/
structure IsChosen (before after : List T) (br ar : Range) (b a n : Nat) : Prop where
  pos : 0 < n
  inOld : br.start ≤ b ∧ b + n ≤ br.fin
  inNew : ar.start ≤ a ∧ a + n ≤ ar.fin
  run : CommonRun before after b a n
  longest : ∀ j i k, br.start ≤ j → j + k ≤ br.fin → ar.start ≤ i → i + k ≤ ar.fin →
    CommonRun before after j i k → k ≤ n
  first : ∀ j i, br.start ≤ j → j + n ≤ br.fin → ar.start ≤ i → i + n ≤ ar.fin →
    CommonRun before after j i n → a ≤ i ∧ (i = a → b ≤ j)

/-- `e` is the number of equal pairs that follow the pair of items at `(b, a)` inside the two ranges, when the items at
`(b, a)` themselves are not looked at. -/
structure SkipsOne (before after : List T) (br ar : Range) (b a e : Nat) : Prop where
  run : CommonRun before after (b + 1) (a + 1) e
  inside : 0 < e → b + 1 + e ≤ br.fin ∧ a + 1 + e ≤ ar.fin
  stop : b + 1 + e < br.fin → a + 1 + e < ar.fin → ¬ Hit before after (b + 1 + e) (a + 1 + e)

/-- The block the search takes in two ranges. -/
def IsBlock (before after : List T) (br ar : Range) (c : CommonSubsequence) : Prop :=
  ∃ n e, IsChosen before after br ar c.b c.a n ∧ SkipsOne before after br ar (c.b + n) (c.a + n) e ∧ c.n = n + e

/-- The blocks in the region `[bs, be) × [as, ae)`, in order: none if the two parts have no item in common; otherwise
the one the search takes, with the blocks of the regions to its left and to its right. -/
inductive Decomp (before after : List T) : Nat → Nat → Nat → Nat → List CommonSubsequence → Prop
  | leaf {bs be as ae : Nat} (h1 : bs ≤ be) (h2 : as ≤ ae)
      (h : ∀ j i, bs ≤ j → j < be → as ≤ i → i < ae → ¬ Hit before after j i) : Decomp before after bs be as ae []
  | node {bs be as ae : Nat} (c : CommonSubsequence) {L R : List CommonSubsequence}
      (hc : IsBlock before after ⟨bs, be⟩ ⟨as, ae⟩ c)
      (hl : Decomp before after bs c.b as c.a L)
      (hr : Decomp before after (c.b + c.n) be (c.a + c.n) ae R) : Decomp before after bs be as ae (L ++ c :: R)

/-- The pair of positions `(j, i)` belongs to the block. -/
def CommonSubsequence.Covers (c : CommonSubsequence) (j i : Nat) : Prop := ∃ t < c.n, j = c.b + t ∧ i = c.a + t

/-- Some block covers the pair. -/
def Covered (d : List CommonSubsequence) (j i : Nat) : Prop := ∃ c ∈ d, c.Covers j i

/-- Some unchanged block of the change list covers the pair. -/
def Kept (cs : List Change) (j i : Nat) : Prop := ∃ c, .noChange c ∈ cs ∧ c.Covers j i

/-- Items the sequences have in common stand in the same order in both, and only once. -/
def InOrder (before after : List T) : Prop :=
  ∀ j i j' i', Hit before after j i → Hit before after j' i' → (j < j' ↔ i < i')

/-! ## Clumps -/

/-- The real changes of a list of changes. -/
def reals (cs : List Change) : List Change := cs.filter (fun c => !c.isNoChange)

/-- `g` is part of block `c`, on the same diagonal. -/
def SubBlock (g c : CommonSubsequence) : Prop := c.b ≤ g.b ∧ g.b + g.n ≤ c.b + c.n ∧ g.b + c.a = g.a + c.b

/-- Pairs of ranges that are in increasing order without overlap between `(i, j)` and `(ie, je)`, where the stretches
left out (before the first, between two neighbours, after the last) have the same length on both sides and satisfy
`skip`. -/
def Synced (skip : CommonSubsequence → Prop) : Nat → Nat → List (Range × Range) → Nat → Nat → Prop
  | i, j, [], ie, je => ∃ n, i + n = ie ∧ j + n = je ∧ skip ⟨i, j, n⟩
  | i, j, (r, s) :: rest, ie, je =>
    (∃ n, i + n = r.start ∧ j + n = s.start ∧ skip ⟨i, j, n⟩) ∧ r.start ≤ r.fin ∧ s.start ≤ s.fin ∧
      Synced skip r.fin s.fin rest ie je

/-- The context before a clump's changes when the changes `init` precede them: the last (up to `ctx`) lines of the block
that precedes.  If more changes precede, that block is long enough to separate two clumps. -/
def Leads (ctx : Nat) (init lead : List Change) : Prop :=
  (init = [] ∧ lead = []) ∨ ∃ init' c, init = init' ++ [.noChange c] ∧ (init' ≠ [] → 2 * ctx ≤ c.n) ∧
    lead = [.noChange ⟨c.b + c.n - min ctx c.n, c.a + c.n - min ctx c.n, min ctx c.n⟩]

/-- The context after a clump's changes when the changes `tail` follow them. -/
def Trails (ctx : Nat) (tail trail : List Change) : Prop :=
  (tail = [] ∧ trail = []) ∨ ∃ c tail', tail = .noChange c :: tail' ∧ (tail' ≠ [] → 2 * ctx ≤ c.n) ∧
    trail = [.noChange ⟨c.b, c.a, min ctx c.n⟩]

/-- The next change, if there is one, is a real one. -/
def HeadReal (cs : List Change) : Prop := ∀ c ∈ cs.head?, c.isNoChange = false

/-- The last change, if there is one, is a real one. -/
def LastReal (cs : List Change) : Prop := ∀ c ∈ cs.getLast?, c.isNoChange = false

/-- A clump as a stretch of the change list: from a real change to a real change, with nothing but blocks shorter than
`2 * ctx` in between, and its context on both sides. -/
def IsStretch (ctx : Nat) (changes clump : List Change) : Prop :=
  ∃ init lead mid trail tail, changes = init ++ mid ++ tail ∧ clump = lead ++ mid ++ trail ∧
    mid ≠ [] ∧ HeadReal mid ∧ LastReal mid ∧ (∀ c, .noChange c ∈ mid → c.n < 2 * ctx) ∧
    Leads ctx init lead ∧ Trails ctx tail trail

/-- The pair of positions `(j, i)` belongs to an unchanged block and is too far away from the changes before and after the
block to be their context. -/
def LeftOut (ctx : Nat) (changes : List Change) (j i : Nat) : Prop :=
  ∃ pre c post t, changes = pre ++ .noChange c :: post ∧ t < c.n ∧ j = c.b + t ∧ i = c.a + t ∧
    (pre ≠ [] → ctx ≤ t) ∧ (post ≠ [] → t + ctx < c.n)

/-- A block long enough to be between two clumps. -/
def separates (ctx : Nat) : Change → Bool
  | .noChange c => 2 * ctx ≤ c.n
  | _ => false

/-- The number of clumps: one more than there are separating blocks, not counting the first and the last change. -/
def clumpCount (ctx : Nat) (changes : List Change) : Nat :=
  if (reals changes).isEmpty then 0 else 1 + changes.tail.dropLast.countP (separates ctx)

/-- The clumps of a diff between `(i, j)` and `(ie, je)`: each stores the slices of the two sequences at its place; what
is left out between the clumps has the same length on both sides and satisfies `skip`. -/
def Diffed (skip : CommonSubsequence → Prop) (before after : List T) : Nat → Nat → List (DiffClump T) → Nat → Nat → Prop
  | i, j, [], ie, je => ∃ n, i + n = ie ∧ j + n = je ∧ skip ⟨i, j, n⟩
  | i, j, c :: cs, ie, je =>
    (∃ n, c.before.start = i + n ∧ c.after.start = j + n ∧ skip ⟨i, j, n⟩) ∧
      c.before.items = cut before c.before.start (c.before.start + c.before.items.length) ∧
      c.after.items = cut after c.after.start (c.after.start + c.after.items.length) ∧
      Diffed skip before after (c.before.start + c.before.items.length) (c.after.start + c.after.items.length) cs ie je

/-! ## Where a clump fits -/

/-- The lines `ls` stand in `l` at position `pos`. -/
def StandsAt (ls l : List T) (pos : Int) : Prop := ∃ pre post, l = pre ++ ls ++ post ∧ (pre.length : Int) = pos

/-- `ls` without its first `r.1` and last `r.2` items. -/
def trim (r : Nat × Nat) (ls : List T) : List T := (ls.take (ls.length - r.2)).drop r.1

/-- The reduction at fuzz level `k` for the given context lengths. -/
def redn (ctx : Nat × Nat) (k : Nat) : Nat × Nat := (min k ctx.1, min k ctx.2)

/-- The answer to the question how the lines `old` with context lengths `ctx` fit into `l` at `pos`:
cleanly; else at the least fuzz level (at least 1, below the longer context length) at which the trimmed lines stand
at the trimmed place; else not at all. -/
def Fits (old : List T) (ctx : Nat × Nat) (l : List T) (pos : Int) : Option WillApply → Prop
  | some .cleanly => StandsAt old l pos
  | some (.withReductions r) => ¬ StandsAt old l pos ∧ ∃ k, 1 ≤ k ∧ k < max ctx.1 ctx.2 ∧ r = redn ctx k ∧
      StandsAt (trim r old) l (pos + r.1) ∧
      ∀ k', 1 ≤ k' → k' < k → ¬ StandsAt (trim (redn ctx k') old) l (pos + (redn ctx k').1)
  | none => ¬ StandsAt old l pos ∧
      ∀ k, 1 ≤ k → k < max ctx.1 ctx.2 → ¬ StandsAt (trim (redn ctx k) old) l (pos + (redn ctx k).1)

/-- The displacements `d ≠ 0` a nearby search may use: backwards not before `low`, forwards before `limit`. -/
def InBounds (pos low limit d : Int) : Prop := (d < 0 ∧ low ≤ pos + d) ∨ (0 < d ∧ pos + d < limit)

/-- The answer of a nearby search: the displacement nearest to 0 (the negative one of two equally near) in bounds at
which the lines fit, and how; or none. -/
def Nearest (old : List T) (ctx : Nat × Nat) (l : List T) (pos low limit : Int) : Option (Int × WillApply) → Prop
  | none => ∀ d, InBounds pos low limit d → Fits old ctx l (pos + d) none
  | some (d, w) => InBounds pos low limit d ∧ Fits old ctx l (pos + d) (some w) ∧
      (∀ d', InBounds pos low limit d' → d'.natAbs < d.natAbs → Fits old ctx l (pos + d') none) ∧
      (0 < d → InBounds pos low limit (-d) → Fits old ctx l (pos + -d) none)

end PwDiff
