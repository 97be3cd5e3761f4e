import Verif.Proofs.Swap
import Verif.Props.Blocks
import Verif.Props.Clumps
import Verif.Props.Apply
import Verif.Props.Bytes

/-! # C110: the diff of the exchanged files -/

namespace PwDiff

variable {T : Type} {before after : List T}

/-- A block with its two sides exchanged. -/
def CommonSubsequence.swap (c : CommonSubsequence) : CommonSubsequence := ⟨c.a, c.b, c.n⟩

/-- A change with its two sides exchanged: what was deleted is inserted. -/
def Change.swap : Change → Change
  | .noChange c => .noChange c.swap
  | .delete r n => .insert n r
  | .insert n r => .delete r n
  | .replace r s => .replace s r

/-- In the region `[bs, be) × [as, ae)` the search takes the same blocks whichever file comes first: of the longest common runs
the one that is taken is the first one in both files, and so on in the regions to its left and to its right. -/
inductive Agreed (before after : List T) : Nat → Nat → Nat → Nat → Prop
  | leaf {bs be as ae : Nat} (h1 : bs ≤ be) (h2 : as ≤ ae)
      (h : ∀ j i, bs ≤ j → j < be → as ≤ i → i < ae → ¬ Hit before after j i) : Agreed before after bs be as ae
  | node {bs be as ae : Nat} (c : CommonSubsequence) (hc : IsBlock before after ⟨bs, be⟩ ⟨as, ae⟩ c)
      (hf : ∀ n, IsChosen before after ⟨bs, be⟩ ⟨as, ae⟩ c.b c.a n → ∀ j i, bs ≤ j → j + n ≤ be → as ≤ i → i + n ≤ ae →
        CommonRun before after j i n → c.b ≤ j ∧ (j = c.b → c.a ≤ i))
      (hl : Agreed before after bs c.b as c.a) (hr : Agreed before after (c.b + c.n) be (c.a + c.n) ae) :
      Agreed before after bs be as ae

/-! ## Blocks -/

theorem Hit.swap {j i : Nat} (h : Hit before after j i) : Hit after before i j := by
  obtain ⟨x, h1, h2⟩ := h
  exact ⟨x, h2, h1⟩

theorem CommonRun.swap {b a n : Nat} (h : CommonRun before after b a n) : CommonRun after before a b n :=
  fun t ht => (h t ht).swap

theorem IsBlock.swap {bs be as ae : Nat} {c : CommonSubsequence} (hc : IsBlock before after ⟨bs, be⟩ ⟨as, ae⟩ c)
    (hf : ∀ n, IsChosen before after ⟨bs, be⟩ ⟨as, ae⟩ c.b c.a n → ∀ j i, bs ≤ j → j + n ≤ be → as ≤ i → i + n ≤ ae →
        CommonRun before after j i n → c.b ≤ j ∧ (j = c.b → c.a ≤ i)) :
    IsBlock after before ⟨as, ae⟩ ⟨bs, be⟩ c.swap := by
  obtain ⟨n, e, h1, h2, h3⟩ := hc
  refine ⟨n, e, ⟨h1.pos, h1.inNew, h1.inOld, h1.run.swap, ?_, ?_⟩, ⟨h2.run.swap, fun h => (h2.inside h).symm, ?_⟩, h3⟩
  · intro j i k g1 g2 g3 g4 g5
    exact h1.longest i j k g3 g4 g1 g2 g5.swap
  · intro j i g1 g2 g3 g4 g5
    exact hf n h1 i j g3 g4 g1 g2 g5.swap
  · intro g1 g2 g3
    exact h2.stop g2 g1 g3.swap

theorem Agreed.decomp {bs be as ae : Nat} (h : Agreed before after bs be as ae) :
    ∃ d, Decomp before after bs be as ae d ∧ Decomp after before as ae bs be (d.map CommonSubsequence.swap) := by
  induction h with
  | leaf h1 h2 h => exact ⟨[], .leaf h1 h2 h, .leaf h2 h1 fun j i a1 a2 a3 a4 hh => h i j a3 a4 a1 a2 hh.swap⟩
  | node c hc hf hl hr ihl ihr =>
    obtain ⟨L, l1, l2⟩ := ihl
    obtain ⟨R, r1, r2⟩ := ihr
    refine ⟨L ++ c :: R, .node c hc l1 r1, ?_⟩
    rw [List.map_append, List.map_cons]
    exact .node c.swap (hc.swap hf) l2 r2

/-! ## Changes -/

theorem Change.swap_old (c : Change) : c.swap.old = c.new := by cases c <;> rfl
theorem Change.swap_new (c : Change) : c.swap.new = c.old := by cases c <;> rfl
theorem Change.swap_isNoChange (c : Change) : c.swap.isNoChange = c.isNoChange := by cases c <;> rfl

theorem Change.Proper.swap {c : Change} (h : c.Proper) : c.swap.Proper := by
  cases c with
  | replace r s => exact ⟨h.2, h.1⟩
  | _ => exact h

theorem Tiles.swap {i j ie je : Nat} {cs : List Change} (h : Tiles i j cs ie je) : Tiles j i (cs.map Change.swap) je ie := by
  induction cs generalizing i j with
  | nil => exact ⟨h.2, h.1⟩
  | cons c cs ih =>
    obtain ⟨h1, h2, h3, h4, h5⟩ := h
    rw [List.map_cons]
    refine ⟨?_, ?_, ?_, ?_, ?_⟩
    all_goals simp only [Change.swap_old, Change.swap_new]
    all_goals first | assumption | exact ih h5

theorem Alternating.swap {cs : List Change} (h : Alternating cs) : Alternating (cs.map Change.swap) := by
  induction cs with
  | nil => trivial
  | cons c cs ih =>
    cases cs with
    | nil => trivial
    | cons d cs =>
      refine ⟨?_, ih h.2⟩
      rw [Change.swap_isNoChange, Change.swap_isNoChange]
      exact h.1

theorem Kept.swap {cs : List Change} {j i : Nat} (h : Kept cs j i) : Kept (cs.map Change.swap) i j := by
  obtain ⟨c, hc, t, h1, h2, h3⟩ := h
  exact ⟨c.swap, List.mem_map.2 ⟨_, hc, rfl⟩, t, h1, h3, h2⟩

theorem Change.swap_swap (c : Change) : c.swap.swap = c := by cases c <;> rfl

theorem Change.map_swap (cs : List Change) : (cs.map Change.swap).map Change.swap = cs := by
  rw [List.map_map]
  conv => rhs; rw [← List.map_id cs]
  exact List.map_congr_left fun c _ => c.swap_swap

theorem Covered.swap {d : List CommonSubsequence} {j i : Nat} (h : Covered d j i) : Covered (d.map CommonSubsequence.swap) i j := by
  obtain ⟨c, hc, t, h1, h2, h3⟩ := h
  exact ⟨c.swap, List.mem_map.2 ⟨_, hc, rfl⟩, t, h1, h3, h2⟩

theorem swap_blocks (d : List CommonSubsequence) : (d.map CommonSubsequence.swap).map CommonSubsequence.swap = d := by
  rw [List.map_map]
  conv => rhs; rw [← List.map_id d]
  rfl

variable [DecidableEq T] [Item T] [LawfulItem T]

/-- If the blocks are agreed on, the change list of the exchanged files is the exchanged change list. -/
theorem C110_changes (p q : Profile) (before after : List T) (ha : Agreed before after 0 before.length 0 after.length)
    (changes : List Change) (h : changesOf p before after = .ok changes) :
    changesOf q after before = .ok (changes.map Change.swap) := by
  obtain ⟨d, d1, d2⟩ := ha.decomp
  obtain ⟨h1, h2, h3, d', d1', h4⟩ := (C70_changes p before after changes).1 h
  obtain rfl := d1.unique d1'
  refine (C70_changes q after before _).2 ⟨h1.swap, ?_, h3.swap, _, d2, ?_⟩
  · intro c hc
    obtain ⟨c', hc', rfl⟩ := List.mem_map.1 hc
    exact (h2 c' hc').swap
  · intro j i
    constructor
    · intro hk
      have := hk.swap
      rw [Change.map_swap] at this
      exact ((h4 i j).1 this).swap
    · intro hk
      have := hk.swap
      rw [swap_blocks] at this
      exact ((h4 i j).2 this).swap

/-! ## Clumps -/

def ClumpIter.swap (s : ClumpIter) : ClumpIter := ⟨s.iter.map Change.swap, s.stash.map CommonSubsequence.swap⟩

def ChangeClump.swap (c : ChangeClump) : ChangeClump := ⟨c.changes.map Change.swap⟩

omit [DecidableEq T] [Item T] [LawfulItem T] in
theorem split_swap (c : CommonSubsequence) (n : Nat) :
    c.swap.split n = (c.split n).map fun x => (x.1.swap, x.2.swap) := by
  unfold CommonSubsequence.split
  by_cases h : c.n ≥ n * 2
  · rw [if_pos h, if_pos (show c.swap.n ≥ n * 2 from h)]
    rfl
  · rw [if_neg h, if_neg (show ¬ c.swap.n ≥ n * 2 from h)]
    rfl

theorem clumpLoop_swap (context : Nat) (iter acc : List Change) :
    clumpLoop context (iter.map Change.swap) (acc.map Change.swap) =
      ((clumpLoop context iter acc).1.map Change.swap, (clumpLoop context iter acc).2.swap) := by
  induction iter generalizing acc with
  | nil => rfl
  | cons c iter ih =>
    have he : (acc.map Change.swap).isEmpty = acc.isEmpty := by cases acc <;> rfl
    have he' : (iter.map Change.swap).isEmpty = iter.isEmpty := by cases iter <;> rfl
    have step : ∀ c', clumpLoop context (iter.map Change.swap) (acc.map Change.swap ++ [Change.swap c']) =
        ((clumpLoop context iter (acc ++ [c'])).1.map Change.swap, (clumpLoop context iter (acc ++ [c'])).2.swap) := by
      intro c'
      rw [← ih (acc ++ [c']), List.map_append]
      rfl
    cases c with
    | noChange c =>
      simp only [List.map_cons, Change.swap, clumpLoop, he, he']
      cases hacc : acc.isEmpty with
      | true =>
        simp only [if_true]
        cases hit : iter.isEmpty with
        | true =>
          simp only [Bool.not_true, Bool.false_eq_true, if_false]
          exact ih acc
        | false =>
          simp only [Bool.not_false, if_true]
          exact step (.noChange (c.startsTrimmed context))
      | false =>
        simp only [Bool.false_eq_true, if_false]
        cases hit : iter.isEmpty with
        | true =>
          simp only [if_true, List.map_append]
          rfl
        | false =>
          simp only [Bool.false_eq_true, if_false]
          rw [split_swap]
          cases hs : c.split context with
          | some x =>
            obtain ⟨head, tail⟩ := x
            simp only [Option.map_some, List.map_append]
            rfl
          | none =>
            simp only [Option.map_none]
            exact step (.noChange c)
    | delete r n => exact step (.delete r n)
    | insert n r => exact step (.insert n r)
    | replace r s => exact step (.replace r s)

theorem clumpNext_swap (context : Nat) (s : ClumpIter) :
    clumpNext context s.swap = ((clumpNext context s).1.map ChangeClump.swap, (clumpNext context s).2.swap) := by
  obtain ⟨iter, stash⟩ := s
  have key : ∀ initial : List Change,
      (if (clumpLoop context (iter.map Change.swap) (initial.map Change.swap)).1.isEmpty then
        ((none : Option ChangeClump), (clumpLoop context (iter.map Change.swap) (initial.map Change.swap)).2)
        else (some ⟨(clumpLoop context (iter.map Change.swap) (initial.map Change.swap)).1⟩,
          (clumpLoop context (iter.map Change.swap) (initial.map Change.swap)).2)) =
      ((if (clumpLoop context iter initial).1.isEmpty then ((none : Option ChangeClump), (clumpLoop context iter initial).2)
        else (some ⟨(clumpLoop context iter initial).1⟩, (clumpLoop context iter initial).2)).1.map ChangeClump.swap,
       (if (clumpLoop context iter initial).1.isEmpty then ((none : Option ChangeClump), (clumpLoop context iter initial).2)
        else (some ⟨(clumpLoop context iter initial).1⟩, (clumpLoop context iter initial).2)).2.swap) := by
    intro initial
    rw [clumpLoop_swap]
    cases h : (clumpLoop context iter initial).1 with
    | nil => rfl
    | cons c cs => rfl
  cases stash with
  | none => exact key []
  | some c => exact key [.noChange c]

theorem clumpCollect_swap (context fuel : Nat) (s : ClumpIter) (ccs : List ChangeClump)
    (h : clumpCollect context fuel s = .ok ccs) : clumpCollect context fuel s.swap = .ok (ccs.map ChangeClump.swap) := by
  induction fuel generalizing s ccs with
  | zero => cases h
  | succ fuel ih =>
    unfold clumpCollect at h ⊢
    rw [clumpNext_swap]
    cases hn : clumpNext context s with
    | mk o s' =>
      rw [hn] at h
      cases o with
      | none =>
        cases h
        rfl
      | some c =>
        simp only at h
        cases hc : clumpCollect context fuel s' with
        | ok cs =>
          rw [hc] at h
          cases h
          simp only [Option.map_some]
          rw [ih s' cs hc]
          rfl
        | ioErr => rw [hc] at h; cases h
        | panic => rw [hc] at h; cases h
        | diverge => rw [hc] at h; cases h

theorem changeClumps_swap (context : Nat) (changes : List Change) (ccs : List ChangeClump)
    (h : changeClumps context changes = .ok ccs) :
    changeClumps context (changes.map Change.swap) = .ok (ccs.map ChangeClump.swap) := by
  unfold changeClumps at h ⊢
  rw [List.length_map]
  exact clumpCollect_swap context _ ⟨changes, none⟩ ccs h

omit [DecidableEq T] [Item T] [LawfulItem T] in
theorem toDiffClump_swap (before after : List T) (cc : ChangeClump) :
    toDiffClump after before cc.swap = (toDiffClump before after cc).swap := by
  have h1 : cc.swap.starts = (cc.starts.2, cc.starts.1) := by
    unfold ChangeClump.starts ChangeClump.swap
    cases h : cc.changes with
    | nil => rfl
    | cons c cs => cases c <;> rfl
  have h2 : cc.swap.ends = (cc.ends.2, cc.ends.1) := by
    unfold ChangeClump.ends ChangeClump.swap
    simp only [List.getLast?_map]
    cases h : cc.changes.getLast? with
    | none => rfl
    | some c => cases c <;> rfl
  have h3 : ∀ o : Option Change, ChangeClump.contextOf (o.map Change.swap) = ChangeClump.contextOf o := by
    intro o
    cases o with
    | none => rfl
    | some c => cases c <;> rfl
  have h4 : cc.swap.contextLengths = cc.contextLengths := by
    unfold ChangeClump.contextLengths ChangeClump.swap
    simp only [List.getLast?_map, List.head?_map, h3]
  unfold toDiffClump DiffClump.swap
  simp only [ChangeClump.ranges, h1, h2, h4]

/-- The property: the diff of the exchanged files is the diff with its sides exchanged. -/
def C110_statement (T : Type) [DecidableEq T] [Item T] : Prop :=
  ∀ (p q : Profile) (before after : List T) (context : Nat) (cs : List (DiffClump T)),
    diffClumps p before after context = .ok cs →
    diffClumps q after before context = .ok (cs.map fun c => DiffClump.mk c.contextLengths c.after c.before)

/-- It holds if the blocks are agreed on, with every context and in both builds. -/
theorem C110_partial (p q : Profile) (before after : List T) (context : Nat) (cs : List (DiffClump T))
    (ha : Agreed before after 0 before.length 0 after.length) (h : diffClumps p before after context = .ok cs) :
    diffClumps q after before context = .ok (cs.map fun c => DiffClump.mk c.contextLengths c.after c.before) := by
  obtain ⟨changes, ccs, e1, e2, -, -, e5⟩ := diffClumps_spec p before after context
  obtain ⟨changes', ccs', g1, g2, -, -, g5⟩ := diffClumps_spec q after before context
  obtain rfl := Outcome.ok_inj (e5.symm.trans h)
  have hch := C110_changes p q before after ha changes e1
  obtain rfl := Outcome.ok_inj (g1.symm.trans hch)
  obtain rfl := Outcome.ok_inj (g2.symm.trans (changeClumps_swap context changes ccs e2))
  rw [g5, List.map_map, List.map_map]
  congr 1
  exact List.map_congr_left fun cc _ => toDiffClump_swap before after cc

omit [DecidableEq T] [Item T] [LawfulItem T] in
theorem agreed_inOrder (ho : InOrder before after) {bs be as ae : Nat} {d : List CommonSubsequence}
    (h : Decomp before after bs be as ae d) : Agreed before after bs be as ae := by
  induction h with
  | leaf h1 h2 h => exact .leaf h1 h2 h
  | node c hc hl hr ihl ihr =>
    refine .node c hc ?_ ihl ihr
    intro n hn j i a1 a2 a3 a4 hrun
    have h0 := hn.pos
    have hh := hrun 0 h0
    have hh' := hn.run 0 h0
    have o1 := ho _ _ _ _ hh hh'
    have o2 := ho _ _ _ _ hh' hh
    have hfirst := (hn.first j i a1 a2 a3 a4 hrun).1
    omega

/-- It holds if the items common to both files stand in the same order in both, each only once. -/
theorem C110_inOrder (p q : Profile) (before after : List T) (context : Nat) (cs : List (DiffClump T))
    (ho : InOrder before after) (h : diffClumps p before after context = .ok cs) :
    diffClumps q after before context = .ok (cs.map fun c => DiffClump.mk c.contextLengths c.after c.before) := by
  obtain ⟨d, hd, -⟩ := C70_blocks before after
  exact C110_partial p q before after context cs (agreed_inOrder ho hd) h

example := C110_inOrder .debug .release ([1, 2, 3, 4, 5] : List UInt8) [1, 9, 8, 2, 3, 5, 7] 0
  [⟨(0, 0), ⟨1, []⟩, ⟨1, [9, 8]⟩⟩, ⟨(0, 0), ⟨3, [4]⟩, ⟨5, []⟩⟩, ⟨(0, 0), ⟨5, []⟩, ⟨6, [7]⟩⟩]
  (inOrder_of_check (by decide +kernel)) (by decide +kernel)

/-! ## Empty diffs -/

omit [DecidableEq T] [Item T] [LawfulItem T] in
/-- Blocks lie in their region. -/
theorem Decomp.inside {bs be as ae : Nat} {d : List CommonSubsequence} (h : Decomp before after bs be as ae d) {j i : Nat}
    (hc : Covered d j i) : bs ≤ j ∧ j < be ∧ as ≤ i ∧ i < ae := by
  induction h with
  | leaf h1 h2 h => obtain ⟨c, hc, -⟩ := hc; cases hc
  | @node bs be as ae c L R hb hl hr ihl ihr =>
    obtain ⟨n, e, h1, h2, h3⟩ := hb
    have i1 := h1.inOld
    have i2 := h1.inNew
    simp only at i1 i2
    have hin : c.b + c.n ≤ be ∧ c.a + c.n ≤ ae := by
      by_cases he : e = 0
      · exact ⟨by omega, by omega⟩
      · have := h2.inside (by omega)
        simp only at this
        exact ⟨by omega, by omega⟩
    obtain ⟨x, hx, t, t1, t2, t3⟩ := hc
    rcases List.mem_append.1 hx with hx | hx
    · have := ihl ⟨x, hx, t, t1, t2, t3⟩
      omega
    · rcases List.mem_cons.1 hx with rfl | hx
      · omega
      · have := ihr ⟨x, hx, t, t1, t2, t3⟩
        omega

omit [DecidableEq T] [Item T] [LawfulItem T] in
/-- If the last pair of a region belongs to a block, it is equal. -/
theorem Decomp.last {bs be as ae : Nat} {d : List CommonSubsequence} (h : Decomp before after bs be as ae d)
    (hc : Covered d (be - 1) (ae - 1)) : Hit before after (be - 1) (ae - 1) := by
  induction h with
  | leaf h1 h2 h => obtain ⟨c, hc, -⟩ := hc; cases hc
  | node c hb hl hr ihl ihr =>
    obtain ⟨x, hx, hcov⟩ := hc
    rcases List.mem_append.1 hx with hx | hx
    · have h1 := hl.inside ⟨x, hx, hcov⟩
      have h2 := hb.hit
      simp only at h2
      omega
    · rcases List.mem_cons.1 hx with rfl | hx
      · obtain ⟨n, e, h1, h2, h3⟩ := hb
        obtain ⟨t, t1, t2, t3⟩ := hcov
        have i1 := h1.inOld
        have i2 := h1.inNew
        simp only at i1 i2
        have he : e = 0 := by
          by_cases he : e = 0
          · exact he
          · have := h2.inside (by omega)
            simp only at this
            omega
        rw [t2, t3]
        exact h1.run t (by omega)
      · exact ihr ⟨x, hx, hcov⟩

omit [DecidableEq T] [Item T] [LawfulItem T] in
/-- If every pair on the diagonal of a square region belongs to a block, the blocks are agreed on. -/
theorem Decomp.agreed {bs be as ae : Nat} {d : List CommonSubsequence} (h : Decomp before after bs be as ae d)
    (hsq : be - bs = ae - as) (hc : ∀ t, t < be - bs → Covered d (bs + t) (as + t)) : Agreed before after bs be as ae := by
  induction h with
  | leaf h1 h2 h => exact .leaf h1 h2 h
  | @node bs be as ae c L R hb hl hr ihl ihr =>
    have hb' := hb
    obtain ⟨n, e, h1, h2, h3⟩ := hb'
    have h0 := h1.pos
    have i1 := h1.inOld
    have i2 := h1.inNew
    simp only at i1 i2
    -- a covered pair is in the part that its first position says
    have left : ∀ j i, Covered (L ++ c :: R) j i → j < c.b → Covered L j i := by
      rintro j i ⟨x, hx, hcov⟩ hj
      rcases List.mem_append.1 hx with hx | hx
      · exact ⟨x, hx, hcov⟩
      · rcases List.mem_cons.1 hx with rfl | hx
        · obtain ⟨t, t1, t2, t3⟩ := hcov
          omega
        · have := hr.inside ⟨x, hx, hcov⟩
          omega
    have middle : ∀ j i, Covered (L ++ c :: R) j i → c.b ≤ j → j < c.b + c.n → c.Covers j i := by
      rintro j i ⟨x, hx, hcov⟩ hj hj'
      rcases List.mem_append.1 hx with hx | hx
      · have := hl.inside ⟨x, hx, hcov⟩
        omega
      · rcases List.mem_cons.1 hx with rfl | hx
        · exact hcov
        · have := hr.inside ⟨x, hx, hcov⟩
          omega
    have right : ∀ j i, Covered (L ++ c :: R) j i → c.b + c.n ≤ j → Covered R j i := by
      rintro j i ⟨x, hx, hcov⟩ hj
      rcases List.mem_append.1 hx with hx | hx
      · have := hl.inside ⟨x, hx, hcov⟩
        omega
      · rcases List.mem_cons.1 hx with rfl | hx
        · obtain ⟨t, t1, t2, t3⟩ := hcov
          omega
        · exact ⟨x, hx, hcov⟩
    -- the block lies on the diagonal
    have diag : as + (c.b - bs) = c.a := by
      have := hc (c.b - bs) (by omega)
      rw [show bs + (c.b - bs) = c.b by omega] at this
      obtain ⟨t, t1, t2, t3⟩ := middle _ _ this (Nat.le_refl _) (by omega)
      omega
    -- it starts the region
    have start : c.b = bs := by
      by_cases hlt : bs < c.b
      · exfalso
        have h4 := left _ _ (hc (c.b - 1 - bs) (by omega)) (by omega)
        rw [show bs + (c.b - 1 - bs) = c.b - 1 by omega, show as + (c.b - 1 - bs) = c.a - 1 by omega] at h4
        have h5 := hl.last h4
        have h6 : CommonRun before after (c.b - 1) (c.a - 1) (n + 1) := by
          intro t ht
          by_cases ht0 : t = 0
          · subst ht0
            exact h5
          · have := h1.run (t - 1) (by omega)
            rw [show c.b + (t - 1) = c.b - 1 + t by omega, show c.a + (t - 1) = c.a - 1 + t by omega] at this
            exact this
        have := h1.longest (c.b - 1) (c.a - 1) (n + 1) (by simp only; omega) (by simp only; omega) (by simp only; omega)
          (by simp only; omega) h6
        omega
      · omega
    have start' : c.a = as := by omega
    refine .node c hb ?_ ?_ ?_
    · intro m hm j i a1 a2 a3 a4 _
      omega
    · refine .leaf (by omega) (by omega) ?_
      intro j i a1 a2
      omega
    · apply ihr (by omega)
      intro t ht
      have h4 := right _ _ (hc (c.n + t) (by omega)) (by omega)
      rw [show bs + (c.n + t) = c.b + c.n + t by omega, show as + (c.n + t) = c.a + c.n + t by omega] at h4
      exact h4

/-- Whether a diff is empty does not depend on which file comes first. -/
theorem C110_empty (p q : Profile) (before after : List T) (context : Nat) (h : diffClumps p before after context = .ok []) :
    diffClumps q after before context = .ok [] := by
  obtain ⟨changes, ccs, e1, e2, e3, e4, e5⟩ := diffClumps_spec p before after context
  have hnil : ccs = [] := by
    have := Outcome.ok_inj (e5.symm.trans h)
    exact List.map_eq_nil_iff.1 this
  subst hnil
  have hreals : reals changes = [] := by rw [← e3.sameReals]; rfl
  obtain ⟨h1, h2, h3, d, hd, h4⟩ := (C70_changes p before after changes).1 e1
  have ha : Agreed before after 0 before.length 0 after.length := by
    cases changes with
    | nil =>
      obtain ⟨g1, g2⟩ := h1
      refine .leaf (Nat.zero_le _) (Nat.zero_le _) ?_
      intro j i _ hj
      omega
    | cons c cs =>
      cases c with
      | noChange c =>
        have hcs : cs = [] := by
          cases cs with
          | nil => rfl
          | cons c' cs =>
            have hr := h3.head_real c' (by simp)
            rw [reals_noChange, reals_real _ hr] at hreals
            cases hreals
        subst hcs
        obtain ⟨g1, g2, g3, g4, g5, g6⟩ := h1
        simp only [Change.old, Change.new] at g1 g2 g3 g4 g5 g6
        apply hd.agreed (by omega)
        intro t ht
        exact (h4 _ _).1 ⟨c, by simp, t, by omega, by omega, by omega⟩
      | delete r n => rw [reals_real _ rfl] at hreals; cases hreals
      | insert n r => rw [reals_real _ rfl] at hreals; cases hreals
      | replace r s => rw [reals_real _ rfl] at hreals; cases hreals
  exact C110_partial p q before after context [] ha h

example := C110_empty .debug .release ([1, 2, 3] : List UInt8) [1, 9, 3] 3 (by decide +kernel)

/-- If the blocks are agreed on, patching with the diff of the exchanged files does on every file the same as patching in reverse
with the diff. -/
theorem C110_reverse (p q r : Profile) (before after l : List T) (context : Nat) (cs cs' : List (DiffClump T))
    (ha : Agreed before after 0 before.length 0 after.length) (h : diffClumps p before after context = .ok cs)
    (h' : diffClumps q after before context = .ok cs') (reverse : Bool) :
    applyInto r cs' l reverse = applyInto r cs l (!reverse) := by
  obtain rfl := Outcome.ok_inj (h'.symm.trans (C110_partial p q before after context cs ha h))
  exact Swap.applyAll r reverse l cs

/-- The same for byte patches. -/
theorem C110_reverseBytes (p q r : Profile) (before after l : List UInt8) (context : Nat) (cs cs' : List (DiffClump UInt8))
    (ha : Agreed before after 0 before.length 0 after.length) (h : diffClumps p before after context = .ok cs)
    (h' : diffClumps q after before context = .ok cs') (reverse : Bool) :
    byteApplyInto r cs' l reverse = byteApplyInto r cs l (!reverse) := by
  obtain rfl := Outcome.ok_inj (h'.symm.trans (C110_partial p q before after context cs ha h))
  exact byteApply_swap r reverse l cs

example := C110_reverse .debug .release .debug ([1, 2, 3, 4, 5] : List UInt8) [1, 9, 8, 2, 3, 5, 7] [7, 1, 2, 4] 0
  [⟨(0, 0), ⟨1, []⟩, ⟨1, [9, 8]⟩⟩, ⟨(0, 0), ⟨3, [4]⟩, ⟨5, []⟩⟩, ⟨(0, 0), ⟨5, []⟩, ⟨6, [7]⟩⟩]
  [⟨(0, 0), ⟨1, [9, 8]⟩, ⟨1, []⟩⟩, ⟨(0, 0), ⟨5, []⟩, ⟨3, [4]⟩⟩, ⟨(0, 0), ⟨6, [7]⟩, ⟨5, []⟩⟩]
  (by
    obtain ⟨d, hd, -⟩ := C70_blocks ([1, 2, 3, 4, 5] : List UInt8) [1, 9, 8, 2, 3, 5, 7]
    exact agreed_inOrder (inOrder_of_check (by decide +kernel)) hd) (by decide +kernel) (by decide +kernel) false
example := C110_reverseBytes .debug .release .debug [1, 2, 3, 4, 5] [1, 9, 8, 2, 3, 5, 7] [7, 1, 2, 4] 0
  [⟨(0, 0), ⟨1, []⟩, ⟨1, [9, 8]⟩⟩, ⟨(0, 0), ⟨3, [4]⟩, ⟨5, []⟩⟩, ⟨(0, 0), ⟨5, []⟩, ⟨6, [7]⟩⟩]
  [⟨(0, 0), ⟨1, [9, 8]⟩, ⟨1, []⟩⟩, ⟨(0, 0), ⟨5, []⟩, ⟨3, [4]⟩⟩, ⟨(0, 0), ⟨6, [7]⟩, ⟨5, []⟩⟩]
  (by
    obtain ⟨d, hd, -⟩ := C70_blocks ([1, 2, 3, 4, 5] : List UInt8) [1, 9, 8, 2, 3, 5, 7]
    exact agreed_inOrder (inOrder_of_check (by decide +kernel)) hd) (by decide +kernel) (by decide +kernel) true

/-- It fails if two lines change places. -/
theorem C110_refuted : ¬ C110_statement Str := by
  intro h
  have := h .debug .debug [ln 'a', ln 'b'] [ln 'b', ln 'a'] 0 _ (show _ = Outcome.ok _ from rfl)
  revert this
  decide +kernel

/-- Lines are inserted and removed: the blocks are agreed on. -/
example : Agreed ([1, 2, 3, 4, 5] : List UInt8) [1, 9, 8, 2, 3, 5, 7] 0 5 0 7 := by
  obtain ⟨d, hd, -⟩ := C70_blocks ([1, 2, 3, 4, 5] : List UInt8) [1, 9, 8, 2, 3, 5, 7]
  exact agreed_inOrder (inOrder_of_check (by decide +kernel)) hd

example := C110_changes .debug .release ([1, 2, 3, 4, 5] : List UInt8) [1, 9, 8, 2, 3, 5, 7]
  (by
    obtain ⟨d, hd, -⟩ := C70_blocks ([1, 2, 3, 4, 5] : List UInt8) [1, 9, 8, 2, 3, 5, 7]
    exact agreed_inOrder (inOrder_of_check (by decide +kernel)) hd)
  [.noChange ⟨0, 0, 1⟩, .insert 1 ⟨1, 3⟩, .noChange ⟨1, 3, 2⟩, .delete ⟨3, 4⟩ 5, .noChange ⟨4, 5, 1⟩, .insert 5 ⟨6, 7⟩] (by decide +kernel)
example := C110_partial .debug .release ([1, 2, 3, 4, 5] : List UInt8) [1, 9, 8, 2, 3, 5, 7] 0
  [⟨(0, 0), ⟨1, []⟩, ⟨1, [9, 8]⟩⟩, ⟨(0, 0), ⟨3, [4]⟩, ⟨5, []⟩⟩, ⟨(0, 0), ⟨5, []⟩, ⟨6, [7]⟩⟩]
  (by
    obtain ⟨d, hd, -⟩ := C70_blocks ([1, 2, 3, 4, 5] : List UInt8) [1, 9, 8, 2, 3, 5, 7]
    exact agreed_inOrder (inOrder_of_check (by decide +kernel)) hd) (by decide +kernel)

/-- A stretch of lines has moved: the diff is exchanged although the lines are not in the same order. -/
example : ∃ cs, diffClumps .debug [1, 2, 3, 4, 5, 6, 7] ([5, 6, 1, 2, 3, 4, 7] : List UInt8) 1 = .ok cs ∧
    diffClumps .release ([5, 6, 1, 2, 3, 4, 7] : List UInt8) [1, 2, 3, 4, 5, 6, 7] 1 =
      .ok (cs.map fun c => DiffClump.mk c.contextLengths c.after c.before) ∧ cs ≠ [] := by
  refine ⟨_, rfl, ?_, ?_⟩ <;> decide +kernel

end PwDiff
