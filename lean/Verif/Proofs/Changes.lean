import Verif.Proofs.Lcs

/-! # From the work list to the change list -/

namespace PwDiff

variable {T : Type}

/-- What is known about every block the search returns. -/
structure Shape (before after : List T) (c : CommonSubsequence) : Prop where
  run : ∃ n0, 1 ≤ n0 ∧ n0 ≤ c.n ∧ CommonRun before after c.b c.a n0 ∧
    (n0 < c.n → ¬ Hit before after (c.b + n0) (c.a + n0) ∧
      CommonRun before after (c.b + n0 + 1) (c.a + n0 + 1) (c.n - n0))

section block
variable {before after : List T} {br ar : Range} {c : CommonSubsequence}

theorem IsBlock.shape (h : IsBlock before after br ar c) : Shape before after c := by
  obtain ⟨n, e, h1, h2, h3⟩ := h
  have h4 := h1.pos
  refine ⟨n, by omega, by omega, h1.run, fun hlt => ⟨?_, ?_⟩⟩
  · intro hh
    have := h2.inside (by omega)
    have := h1.longest c.b c.a (n + 1) h1.inOld.1 (by omega) h1.inNew.1 (by omega) (by
      intro t ht
      rcases Nat.lt_or_ge t n with h | h
      · exact h1.run t h
      · obtain rfl : t = n := by omega
        exact hh)
    omega
  · rw [show c.n - n = e by omega]
    exact h2.run

theorem IsBlock.pos (h : IsBlock before after br ar c) : 1 ≤ c.n := by
  obtain ⟨n, e, h1, h2, h3⟩ := h
  have := h1.pos
  omega

theorem IsBlock.max (h : IsBlock before after br ar c) : ∀ j i k, br.start ≤ j → j + k ≤ br.fin → ar.start ≤ i →
    i + k ≤ ar.fin → CommonRun before after j i k → k ≤ c.n := by
  obtain ⟨n, e, h1, h2, h3⟩ := h
  intro j i k a1 a2 a3 a4 a5
  have := h1.longest j i k a1 a2 a3 a4 a5
  omega

/-- The complete behaviour of the search. -/
theorem lcs_block [DecidableEq T] (p : Profile) (indices : Indices T)
    (hi : ∀ x, indices x = if x ∈ before then some (positions before x) else none)
    (hbr : br.Inside before) (har : ar.Inside after) :
    ∃ r, longestCommonSubsequence p before after indices br ar = .ok r ∧
      (r = none → ∀ j i, br.start ≤ j → j < br.fin → ar.start ≤ i → i < ar.fin → ¬ Hit before after j i) ∧
      ∀ c, r = some c → IsBlock before after br ar c ∧ c.b + c.n ≤ br.fin ∧ c.a + c.n ≤ ar.fin := by
  obtain ⟨r, e1, e2, e3⟩ := lcs_spec p before after indices hi br ar hbr har
  refine ⟨r, e1, ?_, ?_⟩
  · rintro rfl j i h1 h2 h3 h4 hh
    obtain ⟨c, hc, _⟩ := e2 j i 1 h1 (by omega) h3 (by omega) (by omega) (by
      intro t ht
      have : t = 0 := by omega
      subst this; simpa using hh)
    simp at hc
  · intro c hc
    obtain ⟨a1, a2, a3, a4, n0, a5, a6, a7, a8, a9, a10, a11, a12⟩ := e3 c hc
    refine ⟨⟨n0, c.n - n0, ⟨by omega, ⟨a1, by omega⟩, ⟨a3, by omega⟩, a7, a8, a12⟩, ⟨?_, ?_, ?_⟩, by omega⟩, a2, a4⟩
    · intro t ht
      exact (a9 (by omega)).2.1 t ht
    · intro h
      have := a9 (by omega)
      omega
    · intro h1 h2
      rcases Nat.lt_or_ge n0 c.n with h | h
      · have := a11 h (by omega) (by omega)
        rwa [show c.b + n0 + 1 + (c.n - n0) = c.b + c.n + 1 by omega,
          show c.a + n0 + 1 + (c.n - n0) = c.a + c.n + 1 by omega]
      · have := a10 (by omega) (by omega) (by omega)
        rwa [show c.b + n0 + 1 + (c.n - n0) = c.b + n0 + 1 by omega,
          show c.a + n0 + 1 + (c.n - n0) = c.a + n0 + 1 by omega]

end block

/-- Decompositions of a list of regions. -/
inductive Decomps (before after : List T) : List (Range × Range) → List CommonSubsequence → Prop
  | nil : Decomps before after [] []
  | cons {br ar : Range} {lifo : List (Range × Range)} {d ds : List CommonSubsequence}
      (h : Decomp before after br.start br.fin ar.start ar.fin d) (hs : Decomps before after lifo ds) :
      Decomps before after ((br, ar) :: lifo) (d ++ ds)

/-- The measure that bounds the number of iterations. -/
def lifoMeasure : List (Range × Range) → Nat
  | [] => 0
  | (br, _) :: lifo => 2 * (br.fin - br.start) + 1 + lifoMeasure lifo

def LifoInside (before after : List T) (lifo : List (Range × Range)) : Prop :=
  ∀ r ∈ lifo, r.1.Inside before ∧ r.2.Inside after

theorem lcsesLoop_ok [DecidableEq T] (p : Profile) (before after : List T) (indices : Indices T)
    (hi : ∀ x, indices x = if x ∈ before then some (positions before x) else none)
    (fuel : Nat) (lifo : List (Range × Range)) (raw : List CommonSubsequence)
    (hf : lifoMeasure lifo ≤ fuel) (hin : LifoInside before after lifo) :
    ∃ raw' d, lcsesLoop p before after indices fuel lifo raw = .ok raw' ∧ Decomps before after lifo d ∧
      raw'.Perm (raw ++ d) := by
  induction fuel generalizing lifo raw with
  | zero =>
    cases lifo with
    | nil => exact ⟨raw, [], rfl, .nil, by simp⟩
    | cons r lifo => simp [lifoMeasure] at hf
  | succ fuel ih =>
    cases lifo with
    | nil => exact ⟨raw, [], by rw [lcsesLoop], .nil, by simp⟩
    | cons r lifo =>
      obtain ⟨br, ar⟩ := r
      obtain ⟨hbr, har⟩ := hin (br, ar) (by simp)
      simp only at hbr har
      have hin' : LifoInside before after lifo := fun r hr => hin r (by simp [hr])
      simp only [lifoMeasure] at hf
      obtain ⟨r, e1, e2, e3⟩ := lcs_block p indices hi hbr har
      rw [lcsesLoop, e1]
      simp only [Outcome.ok_bind]
      cases r with
      | none =>
        obtain ⟨raw', d, f1, f2, f3⟩ := ih lifo raw (by omega) hin'
        exact ⟨raw', [] ++ d, f1, .cons (.leaf hbr.1 har.1 (e2 rfl)) f2, by simpa using f3⟩
      | some c =>
        obtain ⟨hblock, hb2, ha2⟩ := e3 c rfl
        have hn : 1 ≤ c.n := hblock.pos
        obtain ⟨hb1, ha1⟩ : br.start ≤ c.b ∧ ar.start ≤ c.a := by
          obtain ⟨_, _, h, -⟩ := hblock
          exact ⟨h.inOld.1, h.inNew.1⟩
        -- one generic step: push `ls` (left region or nothing) and `rs` (right region or nothing)
        have step : ∀ (lifo' : List (Range × Range)), lifoMeasure lifo' ≤ fuel → LifoInside before after lifo' →
            (∀ d, Decomps before after lifo' d → ∃ L R D, Decomp before after br.start c.b ar.start c.a L ∧
              Decomp before after (c.b + c.n) br.fin (c.a + c.n) ar.fin R ∧ Decomps before after lifo D ∧
              d.Perm (L ++ R ++ D)) →
            ∃ raw' d, lcsesLoop p before after indices fuel lifo' (raw ++ [c]) = .ok raw' ∧
              Decomps before after ((br, ar) :: lifo) d ∧ raw'.Perm (raw ++ d) := by
          intro lifo' h1 h2 h3
          obtain ⟨raw', d, f1, f2, f3⟩ := ih lifo' (raw ++ [c]) h1 h2
          obtain ⟨L, R, D, g1, g2, g3, g4⟩ := h3 d f2
          refine ⟨raw', (L ++ c :: R) ++ D, f1, .cons (.node c hblock g1 g2) g3, ?_⟩
          refine f3.trans ?_
          rw [List.append_assoc]
          apply List.Perm.append_left
          simp only [List.singleton_append]
          refine (List.Perm.cons c g4).trans ?_
          have h1 : (c :: (L ++ R ++ D)) = (c :: (L ++ R)) ++ D := by simp
          rw [h1]
          apply List.Perm.append_right
          exact (List.perm_middle).symm
        have leafL : ¬ (br.start < c.b ∧ ar.start < c.a) → Decomp before after br.start c.b ar.start c.a [] := by
          intro h; refine .leaf hb1 ha1 ?_
          intro j i h1 h2 h3 h4; omega
        have leafR : ¬ (c.b + c.n < br.fin ∧ c.a + c.n < ar.fin) →
            Decomp before after (c.b + c.n) br.fin (c.a + c.n) ar.fin [] := by
          intro h; refine .leaf hb2 ha2 ?_
          intro j i h1 h2 h3 h4; omega
        have inL : (⟨br.start, c.b⟩ : Range).Inside before ∧ (⟨ar.start, c.a⟩ : Range).Inside after :=
          ⟨⟨hb1, by have := hbr.2; simp; omega⟩, ⟨ha1, by have := har.2; simp; omega⟩⟩
        have inR : (⟨c.b + c.n, br.fin⟩ : Range).Inside before ∧ (⟨c.a + c.n, ar.fin⟩ : Range).Inside after :=
          ⟨⟨hb2, hbr.2⟩, ⟨ha2, har.2⟩⟩
        have consInside : ∀ (r : Range × Range) (l : List (Range × Range)), r.1.Inside before ∧ r.2.Inside after →
            LifoInside before after l → LifoInside before after (r :: l) := by
          intro r l h1 h2 x hx
          rcases List.mem_cons.1 hx with rfl | hx
          · exact h1
          · exact h2 x hx
        dsimp only
        by_cases hL : br.start < c.b ∧ ar.start < c.a <;> by_cases hR : c.b + c.n < br.fin ∧ c.a + c.n < ar.fin
        · rw [if_pos (show br.start < c.beforeStart ∧ ar.start < c.afterStart from hL), if_pos (show c.beforeEnd < br.fin ∧ c.afterEnd < ar.fin from hR)]
          apply step
          · simp only [lifoMeasure, CommonSubsequence.beforeStart, CommonSubsequence.beforeEnd]; omega
          · exact consInside _ _ inR (consInside _ _ inL hin')
          · intro d hd
            cases hd with
            | cons h hs =>
              cases hs with
              | cons h' hs' =>
                refine ⟨_, _, _, h', h, hs', ?_⟩
                rw [← List.append_assoc]
                exact List.Perm.append_right _ List.perm_append_comm
        · rw [if_pos (show br.start < c.beforeStart ∧ ar.start < c.afterStart from hL), if_neg (show ¬ (c.beforeEnd < br.fin ∧ c.afterEnd < ar.fin) from hR)]
          apply step
          · simp only [lifoMeasure, CommonSubsequence.beforeStart]; omega
          · exact consInside _ _ inL hin'
          · intro d hd
            cases hd with
            | cons h hs => exact ⟨_, [], _, h, leafR hR, hs, by simp⟩
        · rw [if_neg (show ¬ (br.start < c.beforeStart ∧ ar.start < c.afterStart) from hL), if_pos (show c.beforeEnd < br.fin ∧ c.afterEnd < ar.fin from hR)]
          apply step
          · simp only [lifoMeasure, CommonSubsequence.beforeEnd]; omega
          · exact consInside _ _ inR hin'
          · intro d hd
            cases hd with
            | cons h hs => exact ⟨[], _, _, leafL hL, h, hs, by simp⟩
        · rw [if_neg (show ¬ (br.start < c.beforeStart ∧ ar.start < c.afterStart) from hL), if_neg (show ¬ (c.beforeEnd < br.fin ∧ c.afterEnd < ar.fin) from hR)]
          apply step
          · omega
          · exact hin'
          · intro d hd
            exact ⟨[], [], d, leafL hL, leafR hR, hd, by simp⟩

/-! ## Ordered block lists -/

/-- Blocks in increasing order between `(i, j)` and `(ie, je)`. -/
def Ordered : Nat → Nat → List CommonSubsequence → Nat → Nat → Prop
  | i, j, [], ie, je => i ≤ ie ∧ j ≤ je
  | i, j, c :: cs, ie, je => i ≤ c.b ∧ j ≤ c.a ∧ 1 ≤ c.n ∧ Ordered (c.b + c.n) (c.a + c.n) cs ie je

/-- The regions between the blocks contain no hit. -/
def GapsClean (before after : List T) : Nat → Nat → List CommonSubsequence → Nat → Nat → Prop
  | i, j, [], ie, je => ∀ x y, i ≤ x → x < ie → j ≤ y → y < je → ¬ Hit before after x y
  | i, j, c :: cs, ie, je => (∀ x y, i ≤ x → x < c.b → j ≤ y → y < c.a → ¬ Hit before after x y) ∧
      GapsClean before after (c.b + c.n) (c.a + c.n) cs ie je

theorem Ordered.le {i j ie je : Nat} {l : List CommonSubsequence} (h : Ordered i j l ie je) : i ≤ ie ∧ j ≤ je := by
  induction l generalizing i j with
  | nil => exact h
  | cons c l ih => obtain ⟨h1, h2, h3, h4⟩ := h; have := ih h4; omega

theorem Ordered.append {i j ie je : Nat} {L R : List CommonSubsequence} {c : CommonSubsequence}
    (hL : Ordered i j L c.b c.a) (hc : 1 ≤ c.n) (hR : Ordered (c.b + c.n) (c.a + c.n) R ie je) :
    Ordered i j (L ++ c :: R) ie je := by
  induction L generalizing i j with
  | nil => exact ⟨hL.1, hL.2, hc, hR⟩
  | cons d L ih => obtain ⟨h1, h2, h3, h4⟩ := hL; exact ⟨h1, h2, h3, ih h4⟩

theorem GapsClean.append {before after : List T} {i j ie je : Nat} {L R : List CommonSubsequence} {c : CommonSubsequence}
    (hL : GapsClean before after i j L c.b c.a) (hR : GapsClean before after (c.b + c.n) (c.a + c.n) R ie je) :
    GapsClean before after i j (L ++ c :: R) ie je := by
  induction L generalizing i j with
  | nil => exact ⟨hL, hR⟩
  | cons d L ih => exact ⟨hL.1, ih hL.2⟩

theorem Decomp.spec {before after : List T} {bs be as ae : Nat} {d : List CommonSubsequence}
    (h : Decomp before after bs be as ae d) :
    Ordered bs as d be ae ∧ GapsClean before after bs as d be ae ∧ ∀ c ∈ d, Shape before after c := by
  induction h with
  | leaf h1 h2 h => exact ⟨⟨h1, h2⟩, h, by simp⟩
  | node c hc hl hr ihl ihr =>
    refine ⟨ihl.1.append hc.pos ihr.1, ihl.2.1.append ihr.2.1, ?_⟩
    intro x hx
    rcases List.mem_append.1 hx with hx | hx
    · exact ihl.2.2 x hx
    · rcases List.mem_cons.1 hx with rfl | hx
      · exact hc.shape
      · exact ihr.2.2 x hx

theorem Decomps.single {before after : List T} {br ar : Range} {d : List CommonSubsequence}
    (h : Decomps before after [(br, ar)] d) : Decomp before after br.start br.fin ar.start ar.fin d := by
  cases h with
  | cons h hs => cases hs with | nil => simpa using h

/-! ## Sorting -/

theorem CommonSubsequence.le_total (x y : CommonSubsequence) : (x.le y || y.le x) = true := by
  unfold CommonSubsequence.le
  rcases Nat.lt_trichotomy x.b y.b with h | h | h <;> rcases Nat.lt_trichotomy x.a y.a with h2 | h2 | h2 <;>
    rcases Nat.le_total x.n y.n with h3 | h3 <;> simp [*]

theorem CommonSubsequence.le_iff (x y : CommonSubsequence) : x.le y = true ↔
    x.b < y.b ∨ (x.b = y.b ∧ (x.a < y.a ∨ (x.a = y.a ∧ x.n ≤ y.n))) := by
  unfold CommonSubsequence.le
  simp

theorem CommonSubsequence.le_trans (x y z : CommonSubsequence) (h1 : x.le y = true) (h2 : y.le z = true) :
    x.le z = true := by
  rw [CommonSubsequence.le_iff] at *
  omega

theorem CommonSubsequence.le_antisymm (x y : CommonSubsequence) (h1 : x.le y = true) (h2 : y.le x = true) : x = y := by
  rw [CommonSubsequence.le_iff] at *
  cases x; cases y; simp at *
  omega

/-- What is assumed of the parallel sort: it returns an ordered permutation. -/
def IsSort (sort : List CommonSubsequence → List CommonSubsequence) : Prop :=
  ∀ l, (sort l).Perm l ∧ (sort l).Pairwise (fun x y => x.le y = true)

theorem insertLcs_perm (x : CommonSubsequence) (l : List CommonSubsequence) : (insertLcs x l).Perm (x :: l) := by
  induction l with
  | nil => exact .refl _
  | cons y ys ih =>
    unfold insertLcs
    split
    · exact .refl _
    · exact (ih.cons y).trans (.swap x y ys)

theorem insertLcs_pairwise (x : CommonSubsequence) (l : List CommonSubsequence)
    (h : l.Pairwise (fun x y => x.le y = true)) : (insertLcs x l).Pairwise (fun x y => x.le y = true) := by
  induction l with
  | nil => simp [insertLcs]
  | cons y ys ih =>
    obtain ⟨h1, h2⟩ := List.pairwise_cons.1 h
    unfold insertLcs
    split
    · next hxy =>
      refine .cons ?_ h
      intro z hz
      rcases List.mem_cons.1 hz with rfl | hz
      · exact hxy
      · exact CommonSubsequence.le_trans _ _ _ hxy (h1 z hz)
    · next hxy =>
      refine .cons ?_ (ih h2)
      intro z hz
      rcases List.mem_cons.1 ((insertLcs_perm x ys).mem_iff.1 hz) with rfl | hz
      · have := CommonSubsequence.le_total z y
        simpa [hxy] using this
      · exact h1 z hz

theorem isSort_sortLcses : IsSort sortLcses := by
  intro l
  induction l with
  | nil => exact ⟨.refl _, .nil⟩
  | cons x xs ih =>
    exact ⟨(insertLcs_perm x _).trans (ih.1.cons x), insertLcs_pairwise x _ ih.2⟩

theorem Ordered.pairwise {i j ie je : Nat} {l : List CommonSubsequence} (h : Ordered i j l ie je) :
    l.Pairwise (fun x y => x.le y = true) := by
  have lower : ∀ (l : List CommonSubsequence) (i j : Nat), Ordered i j l ie je → ∀ c ∈ l, i ≤ c.b := by
    intro l
    induction l with
    | nil => simp
    | cons d l ih =>
      intro i j h c hc
      obtain ⟨h1, h2, h3, h4⟩ := h
      rcases List.mem_cons.1 hc with rfl | hc
      · exact h1
      · have := ih _ _ h4 c hc; omega
  induction l generalizing i j with
  | nil => exact .nil
  | cons c l ih =>
    obtain ⟨h1, h2, h3, h4⟩ := h
    refine .cons ?_ (ih h4)
    intro d hd
    have := lower _ _ _ h4 d hd
    rw [CommonSubsequence.le_iff]
    omega

theorem sort_eq {sort : List CommonSubsequence → List CommonSubsequence} (hsort : IsSort sort)
    {raw d : List CommonSubsequence} (hp : raw.Perm d) (hd : d.Pairwise (fun x y => x.le y = true)) : sort raw = d :=
  List.Perm.eq_of_pairwise (le := fun x y => x.le y = true) (fun a b _ _ => CommonSubsequence.le_antisymm a b)
    (hsort raw).2 hd ((hsort raw).1.trans hp)

/-! ## Merging -/

/-- No two consecutive blocks touch on both sides. -/
def Apart : List CommonSubsequence → Prop
  | [] => True
  | [_] => True
  | c :: d :: cs => ¬ (c.b + c.n = d.b ∧ c.a + c.n = d.a) ∧ Apart (d :: cs)

theorem mergeFrom_head (c : CommonSubsequence) (l : List CommonSubsequence) :
    ∃ n rest, c.n ≤ n ∧ mergeFrom c l = ⟨c.b, c.a, n⟩ :: rest := by
  induction l generalizing c with
  | nil => exact ⟨c.n, [], by omega, by simp [mergeFrom]⟩
  | cons d l ih =>
    unfold mergeFrom
    split
    · obtain ⟨n, rest, h1, h2⟩ := ih (c.incrSizeMovingEnds d.len)
      exact ⟨n, rest, by simp [CommonSubsequence.incrSizeMovingEnds] at h1; omega, h2⟩
    · exact ⟨c.n, _, by omega, rfl⟩

theorem mergeFrom_spec (before after : List T) (c : CommonSubsequence) (l : List CommonSubsequence) {i j ie je : Nat}
    (ho : Ordered i j (c :: l) ie je) (hg : GapsClean before after i j (c :: l) ie je) :
    Ordered i j (mergeFrom c l) ie je ∧ GapsClean before after i j (mergeFrom c l) ie je ∧ Apart (mergeFrom c l) := by
  induction l generalizing c i j with
  | nil => exact ⟨ho, hg, trivial⟩
  | cons d l ih =>
    obtain ⟨h1, h2, h3, h4, h5, h6, h7⟩ := ho
    obtain ⟨g1, g2, g3⟩ := hg
    unfold mergeFrom
    split
    · next hadj =>
      simp only [CommonSubsequence.beforeEnd, CommonSubsequence.afterEnd, CommonSubsequence.beforeStart,
        CommonSubsequence.afterStart] at hadj
      have e1 : c.b + (c.n + d.n) = d.b + d.n := by omega
      have e2 : c.a + (c.n + d.n) = d.a + d.n := by omega
      apply ih
      · refine ⟨h1, h2, ?_, ?_⟩
        · simp only [CommonSubsequence.incrSizeMovingEnds]; omega
        · simp only [CommonSubsequence.incrSizeMovingEnds, CommonSubsequence.len, e1, e2]; exact h7
      · refine ⟨g1, ?_⟩
        simp only [CommonSubsequence.incrSizeMovingEnds, CommonSubsequence.len, e1, e2]; exact g3
    · next hadj =>
      simp only [CommonSubsequence.beforeEnd, CommonSubsequence.afterEnd, CommonSubsequence.beforeStart,
        CommonSubsequence.afterStart] at hadj
      obtain ⟨r1, r2, r3⟩ := ih d (i := c.b + c.n) (j := c.a + c.n) ⟨h4, h5, h6, h7⟩ ⟨g2, g3⟩
      refine ⟨⟨h1, h2, h3, r1⟩, ⟨g1, r2⟩, ?_⟩
      obtain ⟨n, rest, _, hm⟩ := mergeFrom_head d l
      rw [hm] at r3 ⊢
      exact ⟨hadj, r3⟩

/-- If the blocks are true common runs so are the merged ones. -/
theorem mergeFrom_runs (before after : List T) (c : CommonSubsequence) (l : List CommonSubsequence)
    (h : ∀ x ∈ c :: l, CommonRun before after x.b x.a x.n) :
    ∀ x ∈ mergeFrom c l, CommonRun before after x.b x.a x.n := by
  induction l generalizing c with
  | nil => simpa [mergeFrom] using h
  | cons d l ih =>
    unfold mergeFrom
    split
    · next hadj =>
      simp only [CommonSubsequence.beforeEnd, CommonSubsequence.afterEnd, CommonSubsequence.beforeStart,
        CommonSubsequence.afterStart] at hadj
      apply ih
      intro x hx
      rcases List.mem_cons.1 hx with rfl | hx
      · intro t ht
        simp only [CommonSubsequence.incrSizeMovingEnds, CommonSubsequence.len] at ht ⊢
        by_cases htc : t < c.n
        · exact h c (by simp) t htc
        · have := h d (by simp) (t - c.n) (by omega)
          rwa [show d.b + (t - c.n) = c.b + t by omega, show d.a + (t - c.n) = c.a + t by omega] at this
      · exact h x (by simp [hx])
    · intro x hx
      rcases List.mem_cons.1 hx with rfl | hx
      · exact h x (by simp)
      · exact ih d (fun y hy => h y (by
          rcases List.mem_cons.1 hy with rfl | hy
          · simp
          · simp [hy])) x hx

/-! ## Generating the change list -/

/-- `generateLoop` without accumulator. -/
def gen (before after : List T) : List CommonSubsequence → Nat → Nat → List Change
  | [], i, j => finalChange before after i j
  | c :: cs, i, j => gapChange i j c ++ .noChange c :: gen before after cs (c.b + c.n) (c.a + c.n)

theorem generateLoop_eq (before after : List T) (cs : List CommonSubsequence) (i j : Nat) (acc : List Change) :
    generateLoop before after cs i j acc = acc ++ gen before after cs i j := by
  induction cs generalizing i j acc with
  | nil => rfl
  | cons c cs ih =>
    rw [generateLoop, ih, gen]
    simp [CommonSubsequence.beforeEnd, CommonSubsequence.afterEnd]

theorem Tiles.append {i j k l ie je : Nat} {xs ys : List Change} (h1 : Tiles i j xs k l) (h2 : Tiles k l ys ie je) :
    Tiles i j (xs ++ ys) ie je := by
  induction xs generalizing i j with
  | nil => obtain ⟨rfl, rfl⟩ := h1; exact h2
  | cons x xs ih => obtain ⟨a1, a2, a3, a4, a5⟩ := h1; exact ⟨a1, a2, a3, a4, ih a5⟩

theorem gapChange_def (i j : Nat) (c : CommonSubsequence) : gapChange i j c =
    if i < c.b ∧ j < c.a then [.replace ⟨i, c.b⟩ ⟨j, c.a⟩]
    else if i < c.b then [.delete ⟨i, c.b⟩ c.a]
    else if j < c.a then [.insert c.b ⟨j, c.a⟩] else [] := rfl

theorem tiles_gapChange {i j : Nat} {c : CommonSubsequence} (h1 : i ≤ c.b) (h2 : j ≤ c.a) :
    Tiles i j (gapChange i j c) c.b c.a := by
  rw [gapChange_def]
  split
  · simp [Tiles, Change.old, Change.new]; omega
  · split
    · simp [Tiles, Change.old, Change.new]; omega
    · split <;> simp [Tiles, Change.old, Change.new] <;> omega

theorem tiles_finalChange (before after : List T) {i j : Nat} (h1 : i ≤ before.length) (h2 : j ≤ after.length) :
    Tiles i j (finalChange before after i j) before.length after.length := by
  unfold finalChange
  split
  · simp [Tiles, Change.old, Change.new, rangeFrom]; omega
  · split
    · simp [Tiles, Change.old, Change.new, rangeFrom]; omega
    · split <;> simp [Tiles, Change.old, Change.new, rangeFrom] <;> omega

theorem tiles_gen (before after : List T) (cs : List CommonSubsequence) (i j : Nat)
    (h : Ordered i j cs before.length after.length) :
    Tiles i j (gen before after cs i j) before.length after.length := by
  induction cs generalizing i j with
  | nil => exact tiles_finalChange before after h.1 h.2
  | cons c cs ih =>
    obtain ⟨h1, h2, h3, h4⟩ := h
    refine (tiles_gapChange h1 h2).append ?_
    exact ⟨rfl, rfl, by simp [Change.old], by simp [Change.new], ih _ _ h4⟩

theorem proper_gapChange (i j : Nat) (c : CommonSubsequence) : ∀ x ∈ gapChange i j c, x.Proper := by
  rw [gapChange_def]
  split
  · next h => simp [Change.Proper, h]
  · split
    · next h => simp [Change.Proper, h]
    · split
      · next h => simp [Change.Proper, h]
      · simp

theorem proper_finalChange (before after : List T) (i j : Nat) : ∀ x ∈ finalChange before after i j, x.Proper := by
  unfold finalChange
  split
  · next h => simp [Change.Proper, rangeFrom, h]
  · split
    · next h => simp [Change.Proper, rangeFrom, h]
    · split
      · next h => simp [Change.Proper, rangeFrom, h]
      · simp

theorem proper_gen (before after : List T) (cs : List CommonSubsequence) (i j : Nat)
    (h : Ordered i j cs before.length after.length) : ∀ x ∈ gen before after cs i j, x.Proper := by
  induction cs generalizing i j with
  | nil => exact proper_finalChange before after i j
  | cons c cs ih =>
    obtain ⟨h1, h2, h3, h4⟩ := h
    intro x hx
    rcases List.mem_append.1 hx with hx | hx
    · exact proper_gapChange i j c x hx
    · rcases List.mem_cons.1 hx with rfl | hx
      · exact h3
      · exact ih _ _ h4 x hx

/-- A gap yields at most one change and it is a real one. -/
theorem gapChange_cases (i j : Nat) (c : CommonSubsequence) :
    (gapChange i j c = [] ∧ ¬ i < c.b ∧ ¬ j < c.a) ∨ ∃ x, gapChange i j c = [x] ∧ x.isNoChange = false := by
  rw [gapChange_def]
  split
  · exact .inr ⟨_, rfl, rfl⟩
  · split
    · exact .inr ⟨_, rfl, rfl⟩
    · split
      · exact .inr ⟨_, rfl, rfl⟩
      · left; refine ⟨rfl, ?_, ?_⟩ <;> assumption

theorem finalChange_cases (before after : List T) (i j : Nat) :
    (finalChange before after i j = [] ∧ ¬ i < before.length ∧ ¬ j < after.length) ∨
      ∃ x, finalChange before after i j = [x] ∧ x.isNoChange = false := by
  unfold finalChange
  split
  · exact .inr ⟨_, rfl, rfl⟩
  · split
    · exact .inr ⟨_, rfl, rfl⟩
    · split
      · exact .inr ⟨_, rfl, rfl⟩
      · left; refine ⟨rfl, ?_, ?_⟩ <;> assumption

/-- After a block the rest of the list is empty or starts with a real change. -/
theorem alternating_gen (before after : List T) (cs : List CommonSubsequence) (i j : Nat)
    (h : Ordered i j cs before.length after.length) (ha : Apart cs) :
    Alternating (gen before after cs i j) ∧
      ((∀ d, cs.head? = some d → ¬ (i = d.b ∧ j = d.a)) → ∀ x, (gen before after cs i j).head? = some x → x.isNoChange = false) := by
  induction cs generalizing i j with
  | nil =>
    rcases finalChange_cases before after i j with ⟨h1, -, -⟩ | ⟨x, h1, h2⟩
    · simp [gen, h1, Alternating]
    · simp [gen, h1, Alternating, h2]
  | cons c cs ih =>
    obtain ⟨h1, h2, h3, h4⟩ := h
    have ha' : Apart cs := by
      cases cs with
      | nil => trivial
      | cons d cs => exact ha.2
    obtain ⟨r1, r2⟩ := ih _ _ h4 ha'
    have hhead := r2 (by
      intro d hd
      cases cs with
      | nil => simp at hd
      | cons e cs =>
        simp at hd
        subst hd
        exact ha.1)
    have tail : Alternating (.noChange c :: gen before after cs (c.b + c.n) (c.a + c.n)) := by
      cases hg : gen before after cs (c.b + c.n) (c.a + c.n) with
      | nil => trivial
      | cons x xs =>
        rw [hg] at r1 hhead
        refine ⟨?_, r1⟩
        rw [hhead x rfl]
        simp [Change.isNoChange]
    rcases gapChange_cases i j c with ⟨g1, g2, g3⟩ | ⟨x, g1, g2⟩
    · rw [gen, g1]
      refine ⟨tail, ?_⟩
      intro hne
      exact absurd ⟨by omega, by omega⟩ (hne c rfl)
    · rw [gen, g1]
      refine ⟨⟨by rw [g2]; simp [Change.isNoChange], tail⟩, ?_⟩
      intro _ y hy
      simp at hy
      subst hy; exact g2

/-! ## The whole generator -/

/-- The generator terminates normally and its result is the change list of an ordered list of blocks that are apart. -/
theorem generateWith_spec [DecidableEq T] (p : Profile) (before after : List T) (indices : Indices T)
    (hi : ∀ x, indices x = if x ∈ before then some (positions before x) else none) :
    ∃ d, Decomp before after 0 before.length 0 after.length d ∧
      ∀ sort, IsSort sort → longestCommonSubsequencesWith sort p before after indices = .ok (mergeAdjacent d) := by
  obtain ⟨raw, d, e1, e2, e3⟩ := lcsesLoop_ok p before after indices hi (lcsesFuel before)
    [(rangeFrom before 0, rangeFrom after 0)] [] (by simp [lifoMeasure, rangeFrom, lcsesFuel]) (by
      intro r hr
      simp at hr
      subst hr
      simp [Range.Inside, rangeFrom])
  have hd := e2.single
  simp only [rangeFrom] at hd
  refine ⟨d, hd, ?_⟩
  intro sort hsort
  unfold longestCommonSubsequencesWith
  rw [e1]
  simp only [Outcome.ok_bind, Outcome.pure_eq]
  rw [sort_eq hsort (by simpa using e3) hd.spec.1.pairwise]

/-- Everything later proofs need about the change list. -/
structure GoodChanges (before after : List T) (cs : List CommonSubsequence) : Prop where
  ordered : Ordered 0 0 cs before.length after.length
  clean : GapsClean before after 0 0 cs before.length after.length
  apart : Apart cs

theorem mergeAdjacent_spec {before after : List T} {d : List CommonSubsequence} {ie je : Nat}
    (ho : Ordered 0 0 d ie je) (hg : GapsClean before after 0 0 d ie je) :
    Ordered 0 0 (mergeAdjacent d) ie je ∧ GapsClean before after 0 0 (mergeAdjacent d) ie je ∧ Apart (mergeAdjacent d) := by
  cases d with
  | nil => exact ⟨ho, hg, trivial⟩
  | cons c d => exact mergeFrom_spec before after c d ho hg

theorem changesOf_spec [DecidableEq T] [Item T] [LawfulItem T] (p : Profile) (before after : List T) :
    ∃ cs, changesOf p before after = .ok (gen before after cs 0 0) ∧ GoodChanges before after cs ∧
      ∃ d, Decomp before after 0 before.length 0 after.length d ∧ cs = mergeAdjacent d := by
  obtain ⟨d, h1, h2⟩ := generateWith_spec p before after (Item.generateFrom before) (LawfulItem.generateFrom_eq before)
  have hs := h1.spec
  obtain ⟨m1, m2, m3⟩ := mergeAdjacent_spec hs.1 hs.2.1
  refine ⟨mergeAdjacent d, ?_, ⟨m1, m2, m3⟩, d, h1, rfl⟩
  unfold changesOf generateWith
  rw [h2 _ isSort_sortLcses]
  simp [generateLoop_eq]

/-! ## Facts used by the property theorems -/

theorem Outcome.ok_inj {α : Type} {x y : α} (h : (Outcome.ok x : Outcome α) = .ok y) : x = y := by
  injection h

theorem cut_full (l : List T) : cut l 0 l.length = l := by simp [cut]

theorem cut_append (l : List T) {a b c : Nat} (h1 : a ≤ b) (h2 : b ≤ c) : cut l a b ++ cut l b c = cut l a c := by
  unfold cut
  have : l.drop b = (l.drop a).drop (b - a) := by rw [List.drop_drop]; congr 1; omega
  rw [this, show c - a = (b - a) + (c - b) by omega, List.take_add]

theorem cut_self (l : List T) (a : Nat) : cut l a a = [] := by simp [cut]

theorem commonRun_iff_cut {before after : List T} {b a n : Nat} (hb : b + n ≤ before.length) (_ha : a + n ≤ after.length) :
    CommonRun before after b a n ↔ cut before b (b + n) = cut after a (a + n) := by
  constructor
  · intro h
    apply List.ext_getElem?
    intro t
    rw [cut_getElem?, cut_getElem?]
    by_cases ht : t < n
    · obtain ⟨x, h1, h2⟩ := h t ht
      rw [if_pos (by omega), if_pos (by omega), h1, h2]
    · rw [if_neg (by omega), if_neg (by omega)]
  · intro h t ht
    have := congrArg (fun l => l[t]?) h
    simp only [cut_getElem?] at this
    rw [if_pos (by omega), if_pos (by omega)] at this
    have hlt : b + t < before.length := by omega
    exact ⟨before[b + t], by simp [hlt], by rw [← this]; simp [hlt]⟩

theorem Shape.commonRun {before after : List T} {c : CommonSubsequence} (h : Shape before after c)
    (hi : NoIsland before after) : CommonRun before after c.b c.a c.n := by
  obtain ⟨n0, h1, h2, h3, h4⟩ := h.run
  by_cases hn : n0 = c.n
  · exact hn ▸ h3
  · obtain ⟨g1, g2⟩ := h4 (by omega)
    refine absurd ?_ g1
    have k1 := h3 (n0 - 1) (by omega)
    have k2 := g2 0 (by omega)
    have := hi (c.b + (n0 - 1)) (c.a + (n0 - 1)) k1 (by
      rwa [show c.b + (n0 - 1) + 2 = c.b + n0 + 1 + 0 by omega, show c.a + (n0 - 1) + 2 = c.a + n0 + 1 + 0 by omega])
    rwa [show c.b + (n0 - 1) + 1 = c.b + n0 by omega, show c.a + (n0 - 1) + 1 = c.a + n0 by omega] at this

/-- Decidable form of `Hit`. -/
def hitB [DecidableEq T] (before after : List T) (j i : Nat) : Bool :=
  match before[j]?, after[i]? with
  | some x, some y => decide (x = y)
  | _, _ => false

theorem hitB_iff [DecidableEq T] (before after : List T) (j i : Nat) :
    hitB before after j i = true ↔ Hit before after j i := by
  unfold hitB Hit
  cases h1 : before[j]? <;> cases h2 : after[i]? <;> simp
  constructor
  · rintro rfl; rfl
  · intro h; exact h.symm

/-- Checking `NoIsland` on concrete inputs. -/
theorem noIsland_of_check [DecidableEq T] {before after : List T}
    (h : ((List.range before.length).all fun j => (List.range after.length).all fun i =>
      !(hitB before after j i && hitB before after (j + 2) (i + 2)) || hitB before after (j + 1) (i + 1)) = true) :
    NoIsland before after := by
  intro j i h1 h2
  have hj : j < before.length := by
    obtain ⟨x, hx, -⟩ := h1
    exact (List.getElem?_eq_some_iff.1 hx).1
  have hi : i < after.length := by
    obtain ⟨x, -, hx⟩ := h1
    exact (List.getElem?_eq_some_iff.1 hx).1
  rw [List.all_eq_true] at h
  have := h j (List.mem_range.2 hj)
  rw [List.all_eq_true] at this
  have := this i (List.mem_range.2 hi)
  rw [(hitB_iff _ _ _ _).2 h1, (hitB_iff _ _ _ _).2 h2] at this
  exact (hitB_iff _ _ _ _).1 (by simpa using this)

theorem Tiles.le {i j ie je : Nat} {cs : List Change} (h : Tiles i j cs ie je) : i ≤ ie ∧ j ≤ je := by
  induction cs generalizing i j with
  | nil => obtain ⟨h1, h2⟩ := h; omega
  | cons c cs ih => obtain ⟨h1, h2, h3, h4, h5⟩ := h; have := ih h5; omega

/-- Replaying copies the new text exactly when all unchanged blocks are really unchanged. -/
theorem replay_iff (before after : List T) (cs : List Change) (i j ie je : Nat) (h : Tiles i j cs ie je)
    (hie : ie ≤ before.length) (hje : je ≤ after.length) :
    replay before after cs = cut after j je ↔
      ∀ c, .noChange c ∈ cs → cut before c.b (c.b + c.n) = cut after c.a (c.a + c.n) := by
  induction cs generalizing i j with
  | nil =>
    obtain ⟨h1, h2⟩ := h
    subst h2
    simp [replay, cut_self]
  | cons c cs ih =>
    obtain ⟨h1, h2, h3, h4, h5⟩ := h
    have hle := h5.le
    have ih' := ih _ _ h5
    have hcut := cut_append after (a := j) (b := c.new.fin) (c := je) (by omega) (by omega)
    rw [← hcut]
    cases c with
    | noChange c =>
      simp only [Change.old, Change.new] at *
      subst h1 h2
      simp only [replay, List.mem_cons, Change.noChange.injEq]
      constructor
      · intro he
        obtain ⟨e1, e2⟩ := List.append_inj he (by
          rw [length_cut _ _ _ (by omega), length_cut _ _ _ (by omega)]; omega)
        rintro d (rfl | hd)
        · exact e1
        · exact ih'.1 e2 d hd
      · intro hall
        rw [hall c (.inl rfl), ih'.2 (fun d hd => hall d (.inr hd))]
    | delete r s =>
      simp only [Change.old, Change.new] at *
      subst h2
      simpa [replay, cut_self] using ih'
    | insert s r =>
      simp only [Change.old, Change.new] at *
      subst h2
      simpa [replay] using ih'
    | replace r s =>
      simp only [Change.old, Change.new] at *
      subst h2
      simpa [replay] using ih'

theorem replay_length (before after : List T) (cs : List Change) (i j ie je : Nat) (h : Tiles i j cs ie je)
    (hie : ie ≤ before.length) (hje : je ≤ after.length) : (replay before after cs).length = je - j := by
  induction cs generalizing i j with
  | nil =>
    obtain ⟨h1, h2⟩ := h
    subst h2
    simp [replay]
  | cons c cs ih =>
    obtain ⟨h1, h2, h3, h4, h5⟩ := h
    have hle := h5.le
    have ih' := ih _ _ h5
    cases c with
    | noChange c =>
      simp only [Change.old, Change.new] at *
      simp only [replay, List.length_append, ih', length_cut before _ _ (show c.b + c.n ≤ before.length by omega)]
      omega
    | delete r s =>
      simp only [Change.old, Change.new] at *
      simp only [replay, ih']; omega
    | insert s r =>
      simp only [Change.old, Change.new] at *
      simp only [replay, List.length_append, ih', length_cut after _ _ (show r.fin ≤ after.length by omega)]
      omega
    | replace r s =>
      simp only [Change.old, Change.new] at *
      simp only [replay, List.length_append, ih', length_cut after _ _ (show s.fin ≤ after.length by omega)]
      omega

theorem mem_gen (before after : List T) (cs : List CommonSubsequence) (i j : Nat) (c : CommonSubsequence)
    (h : .noChange c ∈ gen before after cs i j) : c ∈ cs := by
  induction cs generalizing i j with
  | nil =>
    rcases finalChange_cases before after i j with ⟨h1, -, -⟩ | ⟨x, h1, h2⟩
    · rw [gen, h1] at h; simp at h
    · rw [gen, h1] at h
      simp at h
      subst h; simp [Change.isNoChange] at h2
  | cons d cs ih =>
    rw [gen] at h
    rcases List.mem_append.1 h with h | h
    · rcases gapChange_cases i j d with ⟨h1, -, -⟩ | ⟨x, h1, h2⟩
      · rw [h1] at h; simp at h
      · rw [h1] at h
        simp at h
        subst h; simp [Change.isNoChange] at h2
    · rcases List.mem_cons.1 h with h | h
      · injection h with h; subst h; simp
      · exact List.mem_cons_of_mem _ (ih _ _ h)

theorem Ordered.bounds {i j ie je : Nat} {l : List CommonSubsequence} (h : Ordered i j l ie je) :
    ∀ c ∈ l, i ≤ c.b ∧ c.b + c.n ≤ ie ∧ j ≤ c.a ∧ c.a + c.n ≤ je := by
  induction l generalizing i j with
  | nil => simp
  | cons d l ih =>
    obtain ⟨h1, h2, h3, h4⟩ := h
    intro c hc
    have := h4.le
    rcases List.mem_cons.1 hc with rfl | hc
    · omega
    · have := ih h4 c hc; omega

theorem Ordered.eq_nil {i j ie je : Nat} {l : List CommonSubsequence} (h : Ordered i j l ie je)
    (he : ie ≤ i ∨ je ≤ j) : l = [] := by
  cases l with
  | nil => rfl
  | cons c l =>
    have := h.bounds c (by simp)
    have := h.2.2.1
    omega

theorem mergeAdjacent_runs (before after : List T) (d : List CommonSubsequence)
    (h : ∀ x ∈ d, CommonRun before after x.b x.a x.n) :
    ∀ x ∈ mergeAdjacent d, CommonRun before after x.b x.a x.n := by
  cases d with
  | nil => simp [mergeAdjacent]
  | cons c d => exact mergeFrom_runs before after c d h

theorem replace_clean (before after : List T) (cs : List CommonSubsequence) (i j : Nat)
    (hg : GapsClean before after i j cs before.length after.length) (r s : Range)
    (h : .replace r s ∈ gen before after cs i j) :
    ∀ x y, r.start ≤ x → x < r.fin → s.start ≤ y → y < s.fin → ¬ Hit before after x y := by
  induction cs generalizing i j with
  | nil =>
    rw [gen, finalChange] at h
    split at h
    · simp at h
      obtain ⟨rfl, rfl⟩ := h
      exact hg
    · split at h
      · simp at h
      · split at h <;> simp at h
  | cons d cs ih =>
    obtain ⟨g1, g2⟩ := hg
    rw [gen] at h
    rcases List.mem_append.1 h with h | h
    · rw [gapChange_def] at h
      split at h
      · simp at h
        obtain ⟨rfl, rfl⟩ := h
        exact g1
      · split at h
        · simp at h
        · split at h <;> simp at h
    · rcases List.mem_cons.1 h with h | h
      · simp at h
      · exact ih _ _ g2 h

section
variable [DecidableEq T] [Item T] [LawfulItem T]

theorem changes_tiles (p : Profile) (before after : List T) (changes : List Change)
    (h : changesOf p before after = .ok changes) : Tiles 0 0 changes before.length after.length := by
  obtain ⟨cs, h', hg, -⟩ := changesOf_spec p before after
  obtain rfl := Outcome.ok_inj (h'.symm.trans h)
  exact tiles_gen before after cs 0 0 hg.ordered

theorem changes_noIsland (p : Profile) (before after : List T) (changes : List Change) (hi : NoIsland before after)
    (h : changesOf p before after = .ok changes) :
    ∀ c, .noChange c ∈ changes → cut before c.b (c.b + c.n) = cut after c.a (c.a + c.n) := by
  obtain ⟨cs, h', hg, d, hd, rfl⟩ := changesOf_spec p before after
  obtain rfl := Outcome.ok_inj (h'.symm.trans h)
  intro c hc
  have hc' := mem_gen before after _ 0 0 c hc
  have hb := hg.ordered.bounds c hc'
  apply (commonRun_iff_cut (by omega) (by omega)).1
  refine mergeAdjacent_runs before after d ?_ c hc'
  intro x hx
  exact (hd.spec.2.2 x hx).commonRun hi

theorem changesOf_self (p : Profile) (l : List T) :
    changesOf p l l = .ok (if l = [] then [] else [.noChange ⟨0, 0, l.length⟩]) := by
  obtain ⟨cs, h', hg, d, hd, rfl⟩ := changesOf_spec p l l
  rw [h']
  congr 1
  have self : CommonRun l l 0 0 l.length := (commonRun_iff_cut (by omega) (by omega)).2 rfl
  by_cases hl : l = []
  · subst hl
    have ho := hg.ordered
    cases hm : mergeAdjacent d with
    | nil => simp [gen, finalChange]
    | cons c cs =>
      rw [hm] at ho
      have := ho.bounds c (by simp)
      have h3 := ho.2.2.1
      simp at this
      omega
  · have hlen : 0 < l.length := List.length_pos_iff.2 hl
    rw [if_neg hl]
    cases hd with
    | leaf h1 h2 h =>
      exact absurd (by simpa using self 0 hlen) (h 0 0 (by omega) hlen (by omega) hlen)
    | node c hc hl' hr =>
      have hk := hc.max 0 0 l.length (by simp) (by simp) (by simp) (by simp) self
      have o1 := hl'.spec.1
      have o2 := hr.spec.1
      have b1 := o1.le
      have b2 := o2.le
      have e1 : c.b = 0 := by omega
      have e2 : c.a = 0 := by omega
      have e3 : c.n = l.length := by omega
      obtain ⟨b, a, n⟩ := c
      simp only at e1 e2 e3
      subst e1 e2 e3
      rw [o1.eq_nil (.inl (Nat.le_refl _)), o2.eq_nil (.inl (by simp))]
      simp [mergeAdjacent, mergeFrom, gen, gapChange_def, finalChange]

end

theorem tiles_noChange_bounds {i j ie je : Nat} {cs : List Change} (h : Tiles i j cs ie je) :
    ∀ c, .noChange c ∈ cs → i ≤ c.b ∧ c.b + c.n ≤ ie ∧ j ≤ c.a ∧ c.a + c.n ≤ je := by
  induction cs generalizing i j with
  | nil => simp
  | cons d cs ih =>
    obtain ⟨h1, h2, h3, h4, h5⟩ := h
    intro c hc
    have := h5.le
    rcases List.mem_cons.1 hc with rfl | hc
    · simp only [Change.old, Change.new] at *
      omega
    · have := ih h5 c hc; omega

end PwDiff
