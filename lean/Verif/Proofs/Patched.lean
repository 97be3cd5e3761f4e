import Verif.Proofs.Refine

/-! # Consequences of the description of patching -/

namespace PwDiff

variable {T : Type}

theorem cut_length_eq (l : List T) (k : Nat) : cut l k l.length = l.drop k := by
  simp [cut, List.take_of_length_le]

/-! ## Facts about generated patches -/

/-- Everything about the clumps of a diff that the application proofs use. -/
structure IsDiff (before after : List T) (cs : List (DiffClump T)) : Prop where
  diffed : ∃ skip, Diffed skip before after 0 0 cs before.length after.length
  ctx : ∀ c ∈ cs, c.contextLengths.1 + c.contextLengths.2 ≤ c.before.items.length ∧
    c.contextLengths.1 + c.contextLengths.2 ≤ c.after.items.length

theorem Diffed.bounds {skip : CommonSubsequence → Prop} {before after : List T} {i j ie je : Nat} {cs : List (DiffClump T)}
    (h : Diffed skip before after i j cs ie je) :
    i ≤ ie ∧ j ≤ je ∧ i + j + weight cs ≤ ie + je ∧
      ∀ c ∈ cs, i ≤ c.before.start ∧ j ≤ c.after.start ∧ c.before.start + c.before.items.length ≤ ie ∧
        c.after.start + c.after.items.length ≤ je := by
  induction cs generalizing i j with
  | nil =>
    obtain ⟨n, h1, h2, -⟩ := h
    simp only [weight]
    exact ⟨by omega, by omega, by omega, by simp⟩
  | cons c cs ih =>
    obtain ⟨⟨n, h1, h2, -⟩, -, -, h3⟩ := h
    obtain ⟨g1, g2, g3, g4⟩ := ih h3
    simp only [weight]
    refine ⟨by omega, by omega, by omega, ?_⟩
    intro d hd
    rcases List.mem_cons.1 hd with rfl | hd
    · omega
    · have := g4 d hd; omega

theorem IsDiff.weight {before after : List T} {cs : List (DiffClump T)} (h : IsDiff before after cs) :
    weight cs ≤ before.length + after.length := by
  obtain ⟨skip, h⟩ := h.diffed
  have := h.bounds; omega

theorem IsDiff.wellFormed {before after : List T} {cs : List (DiffClump T)} (h : IsDiff before after cs)
    (hb : before.length ≤ maxLines) (ha : after.length ≤ maxLines) : ∀ c ∈ cs, c.WellFormed := by
  intro c hc
  obtain ⟨skip, hd⟩ := h.diffed
  have := hd.bounds.2.2.2 c hc
  have hctx := h.ctx c hc
  simp only [maxLines] at *
  exact ⟨hctx.1, hctx.2, by simp only [sizeLimit]; omega, by simp only [sizeLimit]; omega⟩

theorem IsDiff.size {before after l : List T} {cs : List (DiffClump T)} (h : IsDiff before after cs)
    (hb : before.length ≤ maxLines) (ha : after.length ≤ maxLines) (hl : l.length ≤ maxLines) :
    l.length + PwDiff.weight cs < sizeLimit := by
  have := h.weight
  simp only [maxLines, sizeLimit] at *
  omega

theorem IsDiff.swap {before after : List T} {cs : List (DiffClump T)} (h : IsDiff before after cs) :
    IsDiff after before (cs.map DiffClump.swap) := by
  obtain ⟨skip, hd⟩ := h.diffed
  refine ⟨⟨_, hd.swap⟩, ?_⟩
  intro c hc
  obtain ⟨c', hc', rfl⟩ := List.mem_map.1 hc
  have := h.ctx c' hc'
  exact ⟨this.2, this.1⟩

theorem diffClumps_full [DecidableEq T] [Item T] [LawfulItem T] {p : Profile} {before after : List T} {ctx : Nat}
    {cs : List (DiffClump T)} (hctx : ctx ≤ 255) (h : diffClumps p before after ctx = .ok cs) :
    IsDiff before after cs ∧ ∃ changes, changesOf p before after = .ok changes ∧
      Diffed (Skip changes) before after 0 0 cs before.length after.length := by
  obtain ⟨changes, ccs, e1, e2, e3, e4, e5⟩ := diffClumps_spec p before after ctx
  obtain rfl := Outcome.ok_inj (e5.symm.trans h)
  have hd := e4.diffed
  refine ⟨⟨⟨_, hd⟩, ?_⟩, changes, e1, hd⟩
  intro c hc
  obtain ⟨cc, hcc, rfl⟩ := List.mem_map.1 hc
  have hin := e4.inside.2.2 cc.ranges (List.mem_map_of_mem hcc)
  have hok := e3.each cc hcc
  obtain ⟨i, j, ie, je, ht⟩ := e3.cover.mem cc hcc
  obtain ⟨-, -, -, k4, k5⟩ := clump_context hctx hok ht
  simp only [toDiffClump]
  rw [length_cut _ _ _ hin.2.1, length_cut _ _ _ hin.2.2.2, ht.ranges hok.ne_nil]
  simp only
  omega

/-! ## Clean application -/

theorem StandInOrder.le {l : List T} {d : Int} {k : Nat} {cs : List (DiffClump T)} (h : StandInOrder l d k cs) :
    k ≤ l.length := by
  cases cs with
  | nil => exact h
  | cons c cs =>
    have := (standsAt_iff _ _ _).1 h.2.1
    have := h.1
    omega

/-- If all old lines stand in order at displacement `d`, patching from there on replaces them. -/
theorem patching_clean [Item T] (p : Profile) (l : List T) (d : Int) (k : Nat) (st : Statistics) (cs : List (DiffClump T))
    (h : StandInOrder l d k cs) :
    Patching p l k d st cs (bytesOf (patchedFrom l d k cs)) (.ok { st with clean := st.clean + cs.length }) := by
  induction cs generalizing k st with
  | nil =>
    have := Patching.finish (p := p) (l := l) (k := k) (offset := d) (st := st) h
    rw [cut_length_eq] at this
    exact this
  | cons c cs ih =>
    obtain ⟨h1, h2, h3⟩ := h
    have hd : Decides p l k d c cs.head? (.apply 0 .cleanly) := .inl ⟨rfl, h2⟩
    have hplace : placeOf c.before (d + 0) .cleanly = (c.before.start + d).toNat := by
      simp [placeOf, WillApply.redn]
    have hcov : coveredBy c.before .cleanly = c.before.items.length := rfl
    have i := ih _ { st with clean := st.clean + 1 } h3
    have := Patching.apply (st := st) (ls := c.after.items) hd rfl (by
      rw [hplace, hcov, show max k (c.before.start + d).toNat = (c.before.start + d).toNat by omega, Int.add_zero]
      exact i)
    rw [hplace, ← bytesOf_append, ← bytesOf_append] at this
    simp only [List.length_cons]
    rw [show st.clean + (cs.length + 1) = st.clean + 1 + cs.length by omega]
    exact this

theorem Diffed.standInOrder {skip : CommonSubsequence → Prop} {before after : List T} {i j : Nat} {cs : List (DiffClump T)}
    (h : Diffed skip before after i j cs before.length after.length) : StandInOrder before 0 i cs := by
  induction cs generalizing i j with
  | nil => obtain ⟨n, h1, -⟩ := h; show i ≤ before.length; omega
  | cons c cs ih =>
    have hb := h.bounds.2.2.2 c (by simp)
    obtain ⟨⟨n, h1, h2, -⟩, h3, h4, h5⟩ := h
    refine ⟨by omega, ?_, ?_⟩
    · rw [Int.add_zero, standsAt_nat]
      exact ⟨hb.2.2.1, h3.symm⟩
    · rw [Int.add_zero, Int.toNat_natCast]
      exact ih h5

/-- The text a patch makes of its own source has the length of the target, and is the target exactly if the stretches
left out are equal. -/
theorem Diffed.patched {skip : CommonSubsequence → Prop} {before after : List T} {i j : Nat} {cs : List (DiffClump T)}
    (h : Diffed skip before after i j cs before.length after.length) :
    (patchedFrom before 0 i cs).length = after.length - j ∧
    (patchedFrom before 0 i cs = after.drop j ↔
      ∀ g ∈ gaps before i j cs, cut before g.b (g.b + g.n) = cut after g.a (g.a + g.n)) := by
  induction cs generalizing i j with
  | nil =>
    obtain ⟨n, h1, h2, -⟩ := h
    refine ⟨by simp [patchedFrom]; omega, ?_⟩
    simp only [patchedFrom, gaps, List.mem_singleton, forall_eq]
    rw [show i + (before.length - i) = before.length by omega, show j + (before.length - i) = after.length by omega,
      cut_length_eq, cut_length_eq]
  | cons c cs ih =>
    have hb := h.bounds.2.2.2 c (by simp)
    obtain ⟨⟨n, h1, h2, -⟩, h3, h4, h5⟩ := h
    obtain ⟨g1, g2⟩ := ih h5
    have hl1 : (cut before i (c.before.start + 0 : Int).toNat).length = n := by
      rw [Int.add_zero, Int.toNat_natCast, length_cut _ _ _ (by omega)]; omega
    have hsplit : after.drop j = cut after j (j + n) ++ c.after.items ++
        after.drop (c.after.start + c.after.items.length) := by
      have e4 : c.after.items = cut after (j + n) (j + n + c.after.items.length) := by rw [← h2]; exact h4
      rw [← cut_length_eq, ← cut_length_eq, h2]
      generalize hm : c.after.items.length = m at e4 hb ⊢
      rw [e4, cut_append _ (by omega) (by omega), cut_append _ (by omega) (by omega)]
    simp only [patchedFrom, gaps, List.forall_mem_cons]
    have e : (c.before.start + 0 : Int).toNat = c.before.start := by omega
    rw [e] at hl1 ⊢
    refine ⟨?_, ?_⟩
    · rw [List.length_append, List.length_append, g1, hl1]; omega
    · rw [hsplit, ← g2, show i + (c.before.start - i) = c.before.start by omega,
        show j + (c.before.start - i) = j + n by omega]
      constructor
      · intro he
        have k1 := List.append_inj he (by
          rw [List.length_append, List.length_append, hl1, length_cut _ _ _ (by omega)]; omega)
        have k2 := List.append_inj k1.1 (by rw [hl1, length_cut _ _ _ (by omega)]; omega)
        exact ⟨k2.1, k1.2⟩
      · rintro ⟨k1, k2⟩
        rw [k1, k2]

theorem Diffed.gaps_skip {skip : CommonSubsequence → Prop} {before after : List T} {i j je : Nat} {cs : List (DiffClump T)}
    (h : Diffed skip before after i j cs before.length je) : ∀ g ∈ gaps before i j cs, skip g := by
  induction cs generalizing i j with
  | nil =>
    obtain ⟨n, h1, h2, h3⟩ := h
    intro g hg
    simp only [gaps, List.mem_singleton] at hg
    rw [hg, show before.length - i = n by omega]; exact h3
  | cons c cs ih =>
    obtain ⟨⟨n, h1, h2, h3⟩, -, -, h4⟩ := h
    intro g hg
    simp only [gaps, List.mem_cons] at hg
    rcases hg with rfl | hg
    · rw [show c.before.start - i = n by omega]; exact h3
    · exact ih h4 g hg

/-- A part of a block of equal text is equal text. -/
theorem cut_of_subBlock {before after : List T} {g c : CommonSubsequence} (hs : SubBlock g c)
    (h : cut before c.b (c.b + c.n) = cut after c.a (c.a + c.n)) :
    cut before g.b (g.b + g.n) = cut after g.a (g.a + g.n) := by
  obtain ⟨h1, h2, h3⟩ := hs
  apply List.ext_getElem?
  intro t
  have := congrArg (fun l => l[g.b - c.b + t]?) h
  simp only [cut_getElem?] at this ⊢
  by_cases ht : t < g.n
  · rw [if_pos (by omega), if_pos (by omega)] at this
    rw [if_pos (by omega), if_pos (by omega)]
    rw [show c.b + (g.b - c.b + t) = g.b + t by omega, show c.a + (g.b - c.b + t) = g.a + t by omega] at this
    exact this
  · rw [if_neg (by omega), if_neg (by omega)]

theorem gaps_equal_of_noIsland [DecidableEq T] [Item T] [LawfulItem T] {p : Profile} {before after : List T}
    {changes : List Change} {cs : List (DiffClump T)} (hch : changesOf p before after = .ok changes)
    (hd : Diffed (Skip changes) before after 0 0 cs before.length after.length) (hi : NoIsland before after) :
    ∀ g ∈ gaps before 0 0 cs, cut before g.b (g.b + g.n) = cut after g.a (g.a + g.n) := by
  intro g hg
  rcases hd.gaps_skip g hg with h0 | ⟨c, hc, hs⟩
  · rw [h0, Nat.add_zero, Nat.add_zero, cut_self, cut_self]
  · exact cut_of_subBlock hs (changes_noIsland p before after changes hi hch c hc)

theorem Diffed.stands {skip : CommonSubsequence → Prop} {before after : List T} {i j : Nat} {cs : List (DiffClump T)}
    (h : Diffed skip before after i j cs before.length after.length) :
    ∀ c ∈ cs, StandsAt c.before.items before c.before.start ∧ StandsAt c.after.items after c.after.start := by
  induction cs generalizing i j with
  | nil => simp
  | cons c cs ih =>
    have hb := h.bounds.2.2.2 c (by simp)
    obtain ⟨-, h3, h4, h5⟩ := h
    intro x hx
    rcases List.mem_cons.1 hx with rfl | hx
    · rw [standsAt_nat, standsAt_nat]
      exact ⟨⟨hb.2.2.1, h3.symm⟩, ⟨hb.2.2.2, h4.symm⟩⟩
    · exact ih h5 x hx

theorem gaps_swap {skip : CommonSubsequence → Prop} {before after : List T} {i j : Nat} {cs : List (DiffClump T)}
    (h : Diffed skip before after i j cs before.length after.length) :
    gaps after j i (cs.map DiffClump.swap) = (gaps before i j cs).map fun g => ⟨g.a, g.b, g.n⟩ := by
  induction cs generalizing i j with
  | nil =>
    obtain ⟨n, h1, h2, -⟩ := h
    simp only [List.map_nil, gaps, List.map_cons]
    rw [show after.length - j = before.length - i by omega]
  | cons c cs ih =>
    obtain ⟨⟨n, h1, h2, -⟩, -, -, h5⟩ := h
    simp only [List.map_cons, gaps]
    rw [show c.swap.before = c.after from rfl, show c.swap.after = c.before from rfl, ih h5,
      show c.after.start - j = c.before.start - i by omega]

end PwDiff
