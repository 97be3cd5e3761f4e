import Verif.Proofs.Changes

/-! # The blocks are determined -/

namespace PwDiff

variable {T : Type} {before after : List T}

theorem IsChosen.unique {br ar : Range} {b a n b' a' n' : Nat} (h : IsChosen before after br ar b a n)
    (h' : IsChosen before after br ar b' a' n') : b = b' ∧ a = a' ∧ n = n' := by
  have e : n = n' := Nat.le_antisymm
    (h'.longest b a n h.inOld.1 h.inOld.2 h.inNew.1 h.inNew.2 h.run)
    (h.longest b' a' n' h'.inOld.1 h'.inOld.2 h'.inNew.1 h'.inNew.2 h'.run)
  subst e
  have f := h.first b' a' h'.inOld.1 h'.inOld.2 h'.inNew.1 h'.inNew.2 h'.run
  have f' := h'.first b a h.inOld.1 h.inOld.2 h.inNew.1 h.inNew.2 h.run
  omega

theorem SkipsOne.not_lt {br ar : Range} {b a e e' : Nat} (h : SkipsOne before after br ar b a e)
    (h' : SkipsOne before after br ar b a e') : ¬ e < e' := by
  intro hlt
  have hi := h'.inside (by omega)
  exact h.stop (by omega) (by omega) (h'.run e hlt)

theorem SkipsOne.unique {br ar : Range} {b a e e' : Nat} (h : SkipsOne before after br ar b a e)
    (h' : SkipsOne before after br ar b a e') : e = e' := by
  have h1 := h.not_lt h'
  have h2 := h'.not_lt h
  omega

theorem IsBlock.unique {br ar : Range} {c c' : CommonSubsequence} (h : IsBlock before after br ar c)
    (h' : IsBlock before after br ar c') : c = c' := by
  obtain ⟨n, e, h1, h2, h3⟩ := h
  obtain ⟨n', e', h1', h2', h3'⟩ := h'
  obtain ⟨b, a, m⟩ := c
  obtain ⟨b', a', m'⟩ := c'
  simp only at h1 h2 h3 h1' h2' h3'
  obtain ⟨rfl, rfl, rfl⟩ := h1.unique h1'
  obtain rfl := h2.unique h2'
  rw [h3, h3']

theorem IsBlock.hit {br ar : Range} {c : CommonSubsequence} (h : IsBlock before after br ar c) :
    Hit before after c.b c.a ∧ br.start ≤ c.b ∧ c.b < br.fin ∧ ar.start ≤ c.a ∧ c.a < ar.fin := by
  obtain ⟨n, e, h1, -, -⟩ := h
  have h0 := h1.pos
  have i1 := h1.inOld
  have i2 := h1.inNew
  exact ⟨by simpa using h1.run 0 h0, i1.1, by omega, i2.1, by omega⟩

theorem Decomp.unique {bs be as ae : Nat} {d d' : List CommonSubsequence} (h : Decomp before after bs be as ae d)
    (h' : Decomp before after bs be as ae d') : d = d' := by
  induction h generalizing d' with
  | leaf h1 h2 hno =>
    cases h' with
    | leaf => rfl
    | node c hc hl hr =>
      obtain ⟨g1, g2, g3, g4, g5⟩ := hc.hit
      exact absurd g1 (hno _ _ g2 g3 g4 g5)
  | node c hc hl hr ihl ihr =>
    cases h' with
    | leaf h1 h2 hno =>
      obtain ⟨g1, g2, g3, g4, g5⟩ := hc.hit
      exact absurd g1 (hno _ _ g2 g3 g4 g5)
    | node c' hc' hl' hr' =>
      obtain rfl := hc.unique hc'
      rw [ihl hl', ihr hr']

theorem changesOf_eq [DecidableEq T] [Item T] [LawfulItem T] (p : Profile) {d : List CommonSubsequence}
    (h : Decomp before after 0 before.length 0 after.length d) :
    changesOf p before after = .ok (gen before after (mergeAdjacent d) 0 0) := by
  obtain ⟨cs, h1, -, d', h2, rfl⟩ := changesOf_spec p before after
  rw [h.unique h2, h1]

/-! ## What the blocks cover -/

theorem mergeFrom_covered (c : CommonSubsequence) (l : List CommonSubsequence) (j i : Nat) :
    Covered (mergeFrom c l) j i ↔ Covered (c :: l) j i := by
  induction l generalizing c with
  | nil => simp [mergeFrom]
  | cons d l ih =>
    unfold mergeFrom
    split
    · next hadj =>
      simp only [CommonSubsequence.beforeEnd, CommonSubsequence.afterEnd, CommonSubsequence.beforeStart,
        CommonSubsequence.afterStart] at hadj
      rw [ih]
      have : (c.incrSizeMovingEnds d.len).Covers j i ↔ c.Covers j i ∨ d.Covers j i := by
        simp only [CommonSubsequence.Covers, CommonSubsequence.incrSizeMovingEnds, CommonSubsequence.len]
        constructor
        · rintro ⟨t, h1, h2, h3⟩
          by_cases ht : t < c.n
          · exact .inl ⟨t, ht, h2, h3⟩
          · exact .inr ⟨t - c.n, by omega, by omega, by omega⟩
        · rintro (⟨t, h1, h2, h3⟩ | ⟨t, h1, h2, h3⟩)
          · exact ⟨t, by omega, h2, h3⟩
          · exact ⟨c.n + t, by omega, by omega, by omega⟩
      simp only [Covered, List.mem_cons, exists_eq_or_imp]
      rw [this, or_assoc]
    · have := ih d
      simp only [Covered, List.mem_cons, exists_eq_or_imp] at this ⊢
      rw [this]

theorem mergeAdjacent_covered (d : List CommonSubsequence) (j i : Nat) :
    Covered (mergeAdjacent d) j i ↔ Covered d j i := by
  cases d with
  | nil => simp [mergeAdjacent]
  | cons c d => exact mergeFrom_covered c d j i

theorem gen_kept (cs : List CommonSubsequence) (i j x y : Nat) :
    Kept (gen before after cs i j) x y ↔ Covered cs x y := by
  have back : ∀ x, x ∈ cs → .noChange x ∈ gen before after cs i j := by
    intro x
    induction cs generalizing i j with
    | nil => simp
    | cons c cs ih =>
      intro hx
      rcases List.mem_cons.1 hx with rfl | hx
      · simp [gen]
      · simp [gen, ih _ _ hx]
  constructor
  · rintro ⟨c, h1, h2⟩; exact ⟨c, mem_gen before after cs i j c h1, h2⟩
  · rintro ⟨c, h1, h2⟩; exact ⟨c, back c h1, h2⟩

/-! ## A change list is determined by the pairs it keeps -/

theorem Kept.ge {cs : List Change} {i j ie je x y : Nat} (ht : Tiles i j cs ie je) (h : Kept cs x y) :
    i ≤ x ∧ j ≤ y := by
  obtain ⟨c, hc, t, h1, h2, h3⟩ := h
  have := tiles_noChange_bounds ht c hc
  omega

/-- After a proper change that is not a block, the kept pairs start strictly later on one side. -/
theorem Kept.not_head {c : Change} {cs : List Change} {i j ie je : Nat} (ht : Tiles i j (c :: cs) ie je) (hp : c.Proper)
    (hc : c.isNoChange = false) : ¬ Kept (c :: cs) i j := by
  rintro ⟨x, hx, hcov⟩
  obtain ⟨h1, h2, h3, h4, h5⟩ := ht
  have hx' : .noChange x ∈ cs := by
    rcases List.mem_cons.1 hx with rfl | hx
    · simp [Change.isNoChange] at hc
    · exact hx
  have := Kept.ge h5 ⟨x, hx', hcov⟩
  cases c with
  | noChange d => simp [Change.isNoChange] at hc
  | delete r s => simp only [Change.Proper, Change.old, Change.new] at *; omega
  | insert s r => simp only [Change.Proper, Change.old, Change.new] at *; omega
  | replace r s => simp only [Change.Proper, Change.old, Change.new] at *; omega

/-- A list that starts with a real change (or is empty) does not keep its first pair. -/
theorem Kept.not_start {cs : List Change} {i j ie je : Nat} (ht : Tiles i j cs ie je) (hp : ∀ c ∈ cs, c.Proper)
    (hc : ∀ c, cs.head? = some c → c.isNoChange = false) : ¬ Kept cs i j := by
  cases cs with
  | nil => rintro ⟨x, hx, -⟩; simp at hx
  | cons c cs => exact Kept.not_head ht (hp c (by simp)) (hc c rfl)

theorem Alternating.tail {c : Change} {cs : List Change} (h : Alternating (c :: cs)) : Alternating cs := by
  cases cs with
  | nil => trivial
  | cons d cs => exact h.2

theorem Alternating.head_real {c : CommonSubsequence} {cs : List Change} (h : Alternating (.noChange c :: cs)) :
    ∀ d, cs.head? = some d → d.isNoChange = false := by
  cases cs with
  | nil => simp
  | cons d cs =>
    rintro _ ⟨⟩
    have := h.1
    cases hd : d.isNoChange with
    | false => rfl
    | true => rw [hd] at this; exact absurd rfl this

/-- Two proper real changes with the same ranges are the same. -/
theorem Change.eq_of_ranges {c d : Change} (hc : c.Proper) (hd : d.Proper) (nc : c.isNoChange = false)
    (nd : d.isNoChange = false) (h1 : c.old = d.old) (h2 : c.new = d.new) : c = d := by
  cases c <;> cases d <;> simp_all [Change.Proper, Change.old, Change.new, Change.isNoChange]
  all_goals (try (rename_i r1 r2; subst_vars; simp_all))
  all_goals (try (obtain ⟨_, _⟩ := ‹_ ∧ _›; subst_vars; simp_all))

theorem Tiles.progress {c : Change} {cs : List Change} {i j ie je : Nat} (ht : Tiles i j (c :: cs) ie je)
    (hp : c.Proper) : i < ie ∨ j < je := by
  obtain ⟨h1, h2, h3, h4, h5⟩ := ht
  have := h5.le
  cases c <;> simp only [Change.Proper, Change.old, Change.new] at * <;> omega

theorem Kept.of_tail {c : Change} {cs : List Change} {x y : Nat} (h : Kept cs x y) : Kept (c :: cs) x y := by
  obtain ⟨d, hd, hcov⟩ := h
  exact ⟨d, by simp [hd], hcov⟩

theorem Kept.tail_real {c : Change} {cs : List Change} {x y : Nat} (hc : c.isNoChange = false) (h : Kept (c :: cs) x y) :
    Kept cs x y := by
  obtain ⟨d, hd, hcov⟩ := h
  rcases List.mem_cons.1 hd with rfl | hd
  · simp [Change.isNoChange] at hc
  · exact ⟨d, hd, hcov⟩

theorem Kept.tail_block {c : CommonSubsequence} {cs : List Change} {x y : Nat} (h : Kept (.noChange c :: cs) x y)
    (hx : c.b + c.n ≤ x) : Kept cs x y := by
  obtain ⟨d, hd, hcov⟩ := h
  rcases List.mem_cons.1 hd with hd | hd
  · injection hd with hd
    subst hd
    obtain ⟨t, h1, h2, h3⟩ := hcov
    omega
  · exact ⟨d, hd, hcov⟩

theorem block_len_le {d d' : CommonSubsequence} {cs cs' : List Change} {i j ie je : Nat}
    (ht : Tiles i j (.noChange d :: cs) ie je) (ht' : Tiles i j (.noChange d' :: cs') ie je)
    (hp : ∀ c ∈ cs, c.Proper) (ha : Alternating (.noChange d :: cs))
    (hk : ∀ x y, Kept (.noChange d' :: cs') x y → Kept (.noChange d :: cs) x y) : d'.n ≤ d.n := by
  rcases Nat.lt_or_ge d.n d'.n with h | h
  · exfalso
    obtain ⟨h1, h2, -, -, h5⟩ := ht
    obtain ⟨h1', h2', -⟩ := ht'
    simp only [Change.old, Change.new] at *
    have := hk (d.b + d.n) (d.a + d.n) ⟨d', by simp, d.n, h, by omega, by omega⟩
    exact Kept.not_start h5 hp ha.head_real (this.tail_block (Nat.le_refl _))
  · exact h

theorem real_fin_le {c c' : Change} {cs cs' : List Change} {i j ie je : Nat}
    (ht : Tiles i j (c :: cs) ie je) (ht' : Tiles i j (c' :: cs') ie je)
    (hp : ∀ x ∈ c :: cs, x.Proper) (ha : Alternating (c :: cs)) (nc : c.isNoChange = false) (nc' : c'.isNoChange = false)
    (hk : ∀ x y, Kept (c :: cs) x y → Kept (c' :: cs') x y) :
    c'.old.fin ≤ c.old.fin ∧ c'.new.fin ≤ c.new.fin := by
  obtain ⟨h1, h2, -, -, h5⟩ := ht
  obtain ⟨h1', h2', -, -, h5'⟩ := ht'
  cases cs with
  | nil =>
    obtain ⟨e1, e2⟩ := h5
    have := h5'.le
    omega
  | cons d cs =>
    cases d with
    | noChange d =>
      have hd : d.Covers d.b d.a := ⟨0, hp (.noChange d) (by simp), by omega, by omega⟩
      have := (hk d.b d.a ⟨d, by simp, hd⟩).tail_real nc'
      have := Kept.ge h5' this
      obtain ⟨g1, g2, -⟩ := h5
      have g1 : d.b = c.old.fin := g1
      have g2 : d.a = c.new.fin := g2
      omega
    | delete r s => exact absurd nc ha.1
    | insert s r => exact absurd nc ha.1
    | replace r s => exact absurd nc ha.1

theorem changes_determined (cs cs' : List Change) (i j ie je : Nat)
    (ht : Tiles i j cs ie je) (ht' : Tiles i j cs' ie je) (hp : ∀ c ∈ cs, c.Proper) (hp' : ∀ c ∈ cs', c.Proper)
    (ha : Alternating cs) (ha' : Alternating cs') (hk : ∀ x y, Kept cs x y ↔ Kept cs' x y) : cs = cs' := by
  induction cs generalizing cs' i j with
  | nil =>
    cases cs' with
    | nil => rfl
    | cons c' cs' =>
      have := ht'.progress (hp' c' (by simp))
      obtain ⟨h1, h2⟩ := ht
      omega
  | cons c cs ih =>
    cases cs' with
    | nil =>
      have := ht.progress (hp c (by simp))
      obtain ⟨h1, h2⟩ := ht'
      omega
    | cons c' cs' =>
      have hpt : ∀ x ∈ cs, x.Proper := fun x hx => hp x (by simp [hx])
      have hpt' : ∀ x ∈ cs', x.Proper := fun x hx => hp' x (by simp [hx])
      have start : ∀ (d : CommonSubsequence) (l : List Change), Tiles i j (.noChange d :: l) ie je →
          (Change.noChange d).Proper → Kept (.noChange d :: l) i j := by
        intro d l h hd
        obtain ⟨h1, h2, -⟩ := h
        simp only [Change.old, Change.new] at h1 h2
        exact ⟨d, by simp, 0, hd, by omega, by omega⟩
      cases hc : c.isNoChange <;> cases hc' : c'.isNoChange
      · obtain ⟨a1, a2⟩ := real_fin_le ht ht' hp ha hc hc' (fun x y => (hk x y).1)
        obtain ⟨b1, b2⟩ := real_fin_le ht' ht hp' ha' hc' hc (fun x y => (hk x y).2)
        obtain ⟨h1, h2, -, -, h5⟩ := ht
        obtain ⟨h1', h2', -, -, h5'⟩ := ht'
        have e1 : c.old = c'.old := by
          cases ho : c.old; cases ho' : c'.old; simp only [ho, ho'] at *; simp; omega
        have e2 : c.new = c'.new := by
          cases ho : c.new; cases ho' : c'.new; simp only [ho, ho'] at *; simp; omega
        obtain rfl := Change.eq_of_ranges (hp c (by simp)) (hp' c' (by simp)) hc hc' e1 e2
        rw [ih cs' _ _ h5 h5' hpt hpt' ha.tail ha'.tail (fun x y => ⟨fun h => ((hk x y).1 h.of_tail).tail_real hc,
          fun h => ((hk x y).2 h.of_tail).tail_real hc⟩)]
      · exfalso
        cases c' with
        | noChange d' => exact Kept.not_head ht (hp c (by simp)) hc ((hk i j).2 (start d' cs' ht' (hp' _ (by simp))))
        | delete r s => simp [Change.isNoChange] at hc'
        | insert s r => simp [Change.isNoChange] at hc'
        | replace r s => simp [Change.isNoChange] at hc'
      · exfalso
        cases c with
        | noChange d => exact Kept.not_head ht' (hp' c' (by simp)) hc' ((hk i j).1 (start d cs ht (hp _ (by simp))))
        | delete r s => simp [Change.isNoChange] at hc
        | insert s r => simp [Change.isNoChange] at hc
        | replace r s => simp [Change.isNoChange] at hc
      · obtain ⟨d, rfl⟩ : ∃ d, c = .noChange d := by
          cases c with
          | noChange d => exact ⟨d, rfl⟩
          | _ => simp [Change.isNoChange] at hc
        obtain ⟨d', rfl⟩ : ∃ d, c' = .noChange d := by
          cases c' with
          | noChange d => exact ⟨d, rfl⟩
          | _ => simp [Change.isNoChange] at hc'
        have a1 := block_len_le ht ht' hpt ha (fun x y => (hk x y).2)
        have a2 := block_len_le ht' ht hpt' ha' (fun x y => (hk x y).1)
        obtain ⟨h1, h2, -, -, h5⟩ := ht
        obtain ⟨h1', h2', -, -, h5'⟩ := ht'
        obtain ⟨b, a, n⟩ := d
        obtain ⟨b', a', n'⟩ := d'
        simp only [Change.old, Change.new] at *
        obtain rfl : b = b' := by omega
        obtain rfl : a = a' := by omega
        obtain rfl : n = n' := by omega
        rw [ih cs' _ _ h5 h5' hpt hpt' ha.tail ha'.tail (fun x y => ⟨
          fun h => ((hk x y).1 h.of_tail).tail_block (Kept.ge h5 h).1,
          fun h => ((hk x y).2 h.of_tail).tail_block (Kept.ge h5' h).1⟩)]

/-! ## Inputs on which the blocks are known -/

/-- If the common items stand in the same order, all of them end up in blocks. -/
theorem Decomp.covers_hits {bs be as ae : Nat} {d : List CommonSubsequence} (h : Decomp before after bs be as ae d)
    (ho : InOrder before after) (hn : NoIsland before after) :
    ∀ j i, bs ≤ j → j < be → as ≤ i → i < ae → Hit before after j i → Covered d j i := by
  induction h with
  | leaf h1 h2 hno => intro j i a1 a2 a3 a4 hh; exact absurd hh (hno j i a1 a2 a3 a4)
  | node c hc hl hr ihl ihr =>
    intro j i a1 a2 a3 a4 hh
    have hrun := hc.shape.commonRun hn
    have hpos := hc.pos
    have first := hrun 0 (by omega)
    have last := hrun (c.n - 1) (by omega)
    have o1 := ho _ _ _ _ hh first
    have o2 := ho _ _ _ _ last hh
    by_cases h1 : j < c.b
    · obtain ⟨x, hx, hcov⟩ := ihl j i a1 h1 a3 (by omega) hh
      exact ⟨x, by simp [hx], hcov⟩
    · by_cases h2 : c.b + c.n ≤ j
      · obtain ⟨x, hx, hcov⟩ := ihr j i h2 a2 (by omega) a4 hh
        exact ⟨x, by simp [hx], hcov⟩
      · have here := hrun (j - c.b) (by omega)
        have o3 := ho _ _ _ _ hh here
        have o4 := ho _ _ _ _ here hh
        exact ⟨c, by simp, j - c.b, by omega, by omega, by omega⟩

/-- If all common items of a region lie in a square box whose diagonal is a common run, this run is the only block. -/
theorem decomp_one {bs be as ae : Nat} (c : CommonSubsequence) (hpos : 0 < c.n) (h1 : bs ≤ c.b) (h2 : c.b + c.n ≤ be)
    (h3 : as ≤ c.a) (h4 : c.a + c.n ≤ ae) (hrun : CommonRun before after c.b c.a c.n)
    (hbox : ∀ j i, bs ≤ j → j < be → as ≤ i → i < ae → Hit before after j i →
      c.b ≤ j ∧ j < c.b + c.n ∧ c.a ≤ i ∧ i < c.a + c.n) : Decomp before after bs be as ae [c] := by
  have ends : ∀ j i k, 0 < k → bs ≤ j → j + k ≤ be → as ≤ i → i + k ≤ ae → CommonRun before after j i k →
      c.b ≤ j ∧ c.a ≤ i ∧ j + k ≤ c.b + c.n ∧ i + k ≤ c.a + c.n := by
    intro j i k hk a1 a2 a3 a4 hr
    have f := hbox _ _ (by omega) (by omega) (by omega) (by omega) (hr 0 hk)
    have l := hbox (j + (k - 1)) (i + (k - 1)) (by omega) (by omega) (by omega) (by omega) (hr (k - 1) (by omega))
    omega
  refine Decomp.node (L := []) (R := []) c ⟨c.n, 0, ⟨hpos, ⟨h1, h2⟩, ⟨h3, h4⟩, hrun, ?_, ?_⟩, ⟨?_, ?_, ?_⟩, by omega⟩
    (.leaf h1 h3 ?_) (.leaf h2 h4 ?_)
  · intro j i k a1 a2 a3 a4 hr
    rcases Nat.eq_zero_or_pos k with h | h
    · omega
    · have := ends j i k h a1 a2 a3 a4 hr; omega
  · intro j i a1 a2 a3 a4 hr
    have := ends j i c.n hpos a1 a2 a3 a4 hr; omega
  · intro t ht; omega
  · intro h; omega
  · intro a1 a2 hh
    have := hbox _ _ (by omega) a1 (by omega) a2 hh
    omega
  · intro j i a1 a2 a3 a4 hh
    have := hbox j i a1 (by omega) a3 (by omega) hh
    omega
  · intro j i a1 a2 a3 a4 hh
    have := hbox j i (by omega) a2 (by omega) a4 hh
    omega

/-- A line replaced in a file of otherwise common lines: the only common pairs are those on the diagonal, except the
place of the replacement. -/
def OneOff (before after : List T) (k m : Nat) : Prop :=
  ∀ j i, Hit before after j i ↔ j = i ∧ j ≠ k ∧ j < k + 1 + m

/-- The replacement is swallowed by the block before it. -/
theorem decomp_swallowed {k m : Nat} (h : OneOff before after k m) (hm : 0 < m) (hk : m ≤ k) :
    Decomp before after 0 (k + 1 + m) 0 (k + 1 + m) [⟨0, 0, k + m⟩, ⟨k + m, k + m, 1⟩] := by
  have runs : ∀ j i n, 0 < n → CommonRun before after j i n → j = i ∧ (j + n ≤ k ∨ k < j ∧ j + n ≤ k + 1 + m) := by
    intro j i n hn hr
    have f := (h _ _).1 (hr 0 hn)
    have l := (h _ _).1 (hr (n - 1) (by omega))
    refine ⟨by omega, ?_⟩
    rcases Nat.lt_or_ge k j with hj | hj
    · right; omega
    · left
      rcases Nat.lt_or_ge k (j + n) with hjn | hjn
      · have := (h _ _).1 (hr (k - j) (by omega))
        omega
      · omega
  refine Decomp.node (L := []) (R := [⟨k + m, k + m, 1⟩]) ⟨0, 0, k + m⟩
    ⟨k, m, ⟨by omega, ⟨by simp, by simp; omega⟩, ⟨by simp, by simp; omega⟩, ?_, ?_, ?_⟩, ⟨?_, ?_, ?_⟩, rfl⟩
    (.leaf (by simp) (by simp) (by simp)) ?_
  · intro t ht
    exact (h _ _).2 (by simp; omega)
  · intro j i n _ _ _ _ hr
    rcases Nat.eq_zero_or_pos n with hn | hn
    · omega
    · have := runs j i n hn hr; omega
  · intro j i _ _ _ _ hr
    exact ⟨Nat.zero_le _, fun _ => Nat.zero_le _⟩
  · intro t ht
    exact (h _ _).2 (by simp; omega)
  · intro _; simp
  · intro h1 _; simp at h1
  · apply decomp_one
    all_goals simp only
    · omega
    · omega
    · omega
    · omega
    · omega
    · intro t ht
      exact (h _ _).2 (by omega)
    · intro j i a1 a2 a3 a4 hh
      omega

/-- The replacement is found. -/
theorem decomp_found {k m : Nat} (h : OneOff before after k m) (hm : 0 < m) (hk : k < m) :
    Decomp before after 0 (k + 1 + m) 0 (k + 1 + m)
      ((if k = 0 then [] else [⟨0, 0, k⟩]) ++ [⟨k + 1, k + 1, m⟩]) := by
  have runs : ∀ j i n, 0 < n → CommonRun before after j i n → j = i ∧ (j + n ≤ k ∨ k < j ∧ j + n ≤ k + 1 + m) := by
    intro j i n hn hr
    have f := (h _ _).1 (hr 0 hn)
    have l := (h _ _).1 (hr (n - 1) (by omega))
    refine ⟨by omega, ?_⟩
    rcases Nat.lt_or_ge k j with hj | hj
    · right; omega
    · left
      rcases Nat.lt_or_ge k (j + n) with hjn | hjn
      · have := (h _ _).1 (hr (k - j) (by omega))
        omega
      · omega
  refine Decomp.node (R := []) ⟨k + 1, k + 1, m⟩
    ⟨m, 0, ⟨by omega, ⟨by simp, by simp⟩, ⟨by simp, by simp⟩, ?_, ?_, ?_⟩, ⟨?_, ?_, ?_⟩, rfl⟩
    ?_ (.leaf (by simp) (by simp) (by simp; omega))
  · intro t ht
    exact (h _ _).2 (by simp; omega)
  · intro j i n _ _ _ _ hr
    rcases Nat.eq_zero_or_pos n with hn | hn
    · omega
    · have := runs j i n hn hr; omega
  · intro j i _ _ _ _ hr
    have := runs j i m (by omega) hr
    simp only
    omega
  · intro t ht; omega
  · intro h; omega
  · intro h1 _; simp at h1; omega
  · simp only
    split
    · next hk0 =>
      subst hk0
      refine .leaf (by omega) (by omega) ?_
      intro j i _ _ _ _ hh
      have := (h _ _).1 hh
      omega
    · apply decomp_one
      all_goals simp only
      · omega
      · omega
      · omega
      · omega
      · omega
      · intro t ht
        exact (h _ _).2 (by omega)
      · intro j i a1 a2 a3 a4 hh
        have := (h _ _).1 hh
        omega

/-- The last line is replaced. -/
theorem decomp_last {k : Nat} (h : OneOff before after k 0) :
    Decomp before after 0 (k + 1) 0 (k + 1) (if k = 0 then [] else [⟨0, 0, k⟩]) := by
  split
  · refine .leaf (by omega) (by omega) ?_
    intro j i _ _ _ _ hh
    have := (h _ _).1 hh
    omega
  · apply decomp_one
    all_goals simp only
    · omega
    · omega
    · omega
    · omega
    · omega
    · intro t ht
      exact (h _ _).2 (by omega)
    · intro j i a1 a2 a3 a4 hh
      have := (h _ _).1 hh
      omega

end PwDiff
