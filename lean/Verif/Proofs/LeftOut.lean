import Verif.Proofs.Stretch
import Verif.Proofs.Undo

/-! # Which unchanged pairs the clumps leave out -/

namespace PwDiff

variable {T : Type}

theorem Tiles.at {i j ie je : Nat} {pre post : List Change} {c : Change} (h : Tiles i j (pre ++ c :: post) ie je) :
    Tiles i j pre c.old.start c.new.start ∧ c.old.start ≤ c.old.fin ∧ c.new.start ≤ c.new.fin ∧
      Tiles c.old.fin c.new.fin post ie je := by
  induction pre generalizing i j with
  | nil =>
    obtain ⟨h1, h2, h3, h4, h5⟩ := h
    exact ⟨⟨h1.symm, h2.symm⟩, h3, h4, h5⟩
  | cons d pre ih =>
    obtain ⟨h1, h2, h3, h4, h5⟩ := h
    obtain ⟨g1, g2⟩ := ih h5
    exact ⟨⟨h1, h2, h3, h4, g1⟩, g2⟩

/-- Two places of a tiling that overlap are the same place. -/
theorem Tiles.unique {i j ie je : Nat} {a a' b b' : List Change} {c d : Change} (h : Tiles i j (a ++ c :: b) ie je)
    (e : a ++ c :: b = a' ++ d :: b')
    (ho : (∃ y, c.new.start ≤ y ∧ y < c.new.fin ∧ d.new.start ≤ y ∧ y < d.new.fin) ∨
      ∃ x, c.old.start ≤ x ∧ x < c.old.fin ∧ d.old.start ≤ x ∧ x < d.old.fin) : a = a' ∧ c = d ∧ b = b' := by
  induction a generalizing a' i j with
  | nil =>
    cases a' with
    | nil =>
      simp only [List.nil_append, List.cons.injEq] at e
      exact ⟨rfl, e.1, e.2⟩
    | cons x a' =>
      simp only [List.nil_append, List.cons_append, List.cons.injEq] at e
      obtain ⟨rfl, rfl⟩ := e
      have h5 := Tiles.at h.2.2.2.2
      have := h5.1.le
      rcases ho with ⟨y, _⟩ | ⟨x, _⟩ <;> omega
  | cons x a ih =>
    cases a' with
    | nil =>
      simp only [List.nil_append, List.cons_append, List.cons.injEq] at e
      obtain ⟨rfl, rfl⟩ := e
      have h5 := Tiles.at h.2.2.2.2
      have := h5.1.le
      rcases ho with ⟨y, _⟩ | ⟨x, _⟩ <;> omega
    | cons x' a' =>
      simp only [List.cons_append, List.cons.injEq] at e
      obtain ⟨rfl, e⟩ := e
      obtain ⟨rfl, rfl, rfl⟩ := ih h.2.2.2.2 e
      exact ⟨rfl, rfl, rfl⟩

/-- Every position of the new sequence that is tiled belongs to a change. -/
theorem Tiles.find {i j ie je : Nat} {l : List Change} (h : Tiles i j l ie je) {y : Nat} (h1 : j ≤ y) (h2 : y < je) :
    ∃ a c b, l = a ++ c :: b ∧ c.new.start ≤ y ∧ y < c.new.fin := by
  induction l generalizing i j with
  | nil =>
    obtain ⟨-, rfl⟩ := h
    omega
  | cons c l ih =>
    obtain ⟨g1, g2, g3, g4, g5⟩ := h
    by_cases hy : y < c.new.fin
    · exact ⟨[], c, l, rfl, by omega, hy⟩
    · obtain ⟨a, d, b, e, h⟩ := ih g5 (by omega)
      exact ⟨c :: a, d, b, by rw [e]; rfl, h⟩

/-- A proper change is not empty on both sides. -/
theorem Change.Proper.nonempty {c : Change} (h : c.Proper) : c.old.start < c.old.fin ∨ c.new.start < c.new.fin := by
  cases c with
  | noChange c => left; simp only [Change.Proper] at h; simp only [Change.old]; omega
  | delete r s => exact .inl h
  | insert s r => exact .inr h
  | replace r s => exact .inl h.1

theorem Tiles.place {i j ie je : Nat} {a a' b b' : List Change} {c : Change} (h : Tiles i j (a ++ c :: b) ie je)
    (hc : c.Proper) (e : a ++ c :: b = a' ++ c :: b') : a = a' ∧ b = b' := by
  have := h.unique e (by
    rcases hc.nonempty with h | h
    · exact .inr ⟨c.old.start, by omega, h, by omega, h⟩
    · exact .inl ⟨c.new.start, by omega, h, by omega, h⟩)
  exact ⟨this.1, this.2.2⟩

/-- A pair that is left out is in no clump. -/
theorem LeftOut.notIn {ctx : Nat} {changes clump : List Change} {ie je i' j' ie' je' x y : Nat} (ht : Tiles 0 0 changes ie je)
    (hl : LeftOut ctx changes x y) (hs : IsStretch ctx changes clump) (hc : Tiles i' j' clump ie' je') :
    ¬ (j' ≤ y ∧ y < je') := by
  rintro ⟨h1, h2⟩
  obtain ⟨pre, k, post, t, e, g1, g2, g3, g4, g5⟩ := hl
  obtain ⟨init, lead, mid, trail, tail, s1, s2, s3, s4, s5, s6, s7, s8⟩ := hs
  obtain ⟨a, c, b, f1, f2, f3⟩ := hc.find h1 h2
  have hk : (Change.noChange k).new.start ≤ y ∧ y < (Change.noChange k).new.fin := by
    simp only [Change.new]; omega
  have hmem : c ∈ lead ∨ c ∈ mid ∨ c ∈ trail := by
    have : c ∈ clump := by rw [f1]; simp
    rw [s2] at this
    simpa [or_assoc] using this
  rcases hmem with hm | hm | hm
  · rcases s7 with ⟨-, rfl⟩ | ⟨init', d, rfl, -, rfl⟩
    · simp at hm
    · obtain rfl := List.mem_singleton.1 hm
      simp only [Change.new] at f2 f3
      rw [e] at ht s1
      have := ht.unique (a' := init') (d := .noChange d) (b' := mid ++ tail) (by rw [s1]; simp)
        (.inl ⟨y, hk.1, hk.2, by simp only [Change.new]; omega, by simp only [Change.new]; omega⟩)
      obtain ⟨-, hkd, rfl⟩ := this
      obtain rfl := Change.noChange.inj hkd
      have := g5 (by simp [s3])
      omega
  · obtain ⟨m1, m2, rfl⟩ := List.append_of_mem hm
    rw [e] at ht s1
    have := ht.unique (a' := init ++ m1) (d := c) (b' := m2 ++ tail) (by rw [s1]; simp) (.inl ⟨y, hk.1, hk.2, f2, f3⟩)
    obtain ⟨rfl, rfl, rfl⟩ := this
    have hn := s6 k (by simp)
    have p1 : m1 ≠ [] := by
      rintro rfl
      have := s4 (.noChange k) (by simp)
      simp [Change.isNoChange] at this
    have p2 : m2 ≠ [] := by
      rintro rfl
      have := s5 (.noChange k) (by simp)
      simp [Change.isNoChange] at this
    have := g4 (by simp [p1])
    have := g5 (by simp [p2])
    omega
  · rcases s8 with ⟨-, rfl⟩ | ⟨d, tail', rfl, -, rfl⟩
    · simp at hm
    · obtain rfl := List.mem_singleton.1 hm
      simp only [Change.new] at f2 f3
      rw [e] at ht s1
      have := ht.unique (a' := init ++ mid) (d := .noChange d) (b' := tail') (by rw [s1])
        (.inl ⟨y, hk.1, hk.2, by simp only [Change.new]; omega, by simp only [Change.new]; omega⟩)
      obtain ⟨rfl, hkd, -⟩ := this
      obtain rfl := Change.noChange.inj hkd
      have := g4 (by simp [s3])
      omega

theorem Alternating.neighbours {a b : List Change} {c d : Change} (h : Alternating (a ++ c :: d :: b)) :
    c.isNoChange ≠ d.isNoChange := h.append_right.1

theorem mem_reals {c : Change} {l : List Change} : c ∈ reals l ↔ c ∈ l ∧ c.isNoChange = false := by
  simp [reals]

/-- A pair of an unchanged block that is not left out is in a clump. -/
theorem Kept.inClump {ctx : Nat} {changes : List Change} {ccs : List ChangeClump} {ie je x y : Nat} (ht : Tiles 0 0 changes ie je)
    (hp : ∀ c ∈ changes, c.Proper) (halt : Alternating changes)
    (hr : ccs.flatMap (fun c => reals c.changes) = reals changes) (hs : ∀ cc ∈ ccs, IsStretch ctx changes cc.changes)
    (hk : Kept changes x y) (hl : ¬ LeftOut ctx changes x y) :
    ∃ cc ∈ ccs, ∃ c ∈ cc.changes, c.new.start ≤ y ∧ y < c.new.fin := by
  obtain ⟨k, hk, t, g1, g2, g3⟩ := hk
  obtain ⟨pre, post, e⟩ := List.append_of_mem hk
  have hcases : (pre ≠ [] ∧ t < ctx) ∨ (post ≠ [] ∧ k.n ≤ t + ctx) := by
    by_cases h1 : pre ≠ [] ∧ t < ctx
    · exact .inl h1
    · by_cases h2 : post ≠ [] ∧ k.n ≤ t + ctx
      · exact .inr h2
      · exact absurd ⟨pre, k, post, t, e, g1, g2, g3, fun h => by
          have : ¬ t < ctx := fun h' => h1 ⟨h, h'⟩
          omega, fun h => by
          have : ¬ k.n ≤ t + ctx := fun h' => h2 ⟨h, h'⟩
          omega⟩ hl
  have find : ∀ r ∈ changes, r.isNoChange = false → ∃ cc ∈ ccs, r ∈ cc.changes := by
    intro r hrm hrr
    have : r ∈ reals changes := mem_reals.2 ⟨hrm, hrr⟩
    rw [← hr] at this
    obtain ⟨cc, h1, h2⟩ := List.mem_flatMap.1 this
    exact ⟨cc, h1, (mem_reals.1 h2).1⟩
  have whole : k.a ≤ y ∧ y < k.a + k.n := by omega
  rcases hcases with ⟨hne, hlt⟩ | ⟨hne, hlt⟩
  · obtain ⟨pre0, r, rfl⟩ := List.eq_nil_or_concat pre |>.resolve_left hne
    rw [List.concat_eq_append, List.append_assoc, List.singleton_append] at e
    have hreal : r.isNoChange = false := by
      rw [e] at halt
      have := halt.neighbours
      cases h : r.isNoChange
      · rfl
      · rw [h] at this; simp [Change.isNoChange] at this
    obtain ⟨cc, hcc, hrc⟩ := find r (by rw [e]; simp) hreal
    refine ⟨cc, hcc, ?_⟩
    obtain ⟨init, lead, mid, trail, tail, s1, s2, s3, s4, s5, s6, s7, s8⟩ := hs cc hcc
    have hmid : r ∈ mid := by
      rw [s2] at hrc
      simp only [List.mem_append] at hrc
      rcases hrc with (h | h) | h
      · rcases s7 with ⟨-, rfl⟩ | ⟨_, _, -, -, rfl⟩
        · simp at h
        · rw [List.mem_singleton.1 h] at hreal; simp [Change.isNoChange] at hreal
      · exact h
      · rcases s8 with ⟨-, rfl⟩ | ⟨_, _, -, -, rfl⟩
        · simp at h
        · rw [List.mem_singleton.1 h] at hreal; simp [Change.isNoChange] at hreal
    obtain ⟨m1, m2, rfl⟩ := List.append_of_mem hmid
    have hpr := hp r (by rw [e]; simp)
    rw [e] at ht s1
    obtain ⟨-, h2⟩ := ht.place (a' := init ++ m1) (b' := m2 ++ tail) hpr (by rw [s1]; simp)
    cases m2 with
    | nil =>
      rw [List.nil_append] at h2
      subst h2
      rcases s8 with ⟨h, -⟩ | ⟨d, tail', h, -, rfl⟩
      · simp at h
      · simp only [List.cons.injEq, Change.noChange.injEq] at h
        obtain ⟨rfl, rfl⟩ := h
        refine ⟨.noChange ⟨k.b, k.a, min ctx k.n⟩, by rw [s2]; simp, ?_⟩
        simp only [Change.new]
        omega
    | cons d m2 =>
      simp only [List.cons_append, List.cons.injEq] at h2
      obtain ⟨rfl, -⟩ := h2
      refine ⟨.noChange k, by rw [s2]; simp, ?_⟩
      simp only [Change.new]
      exact whole
  · obtain ⟨r, post0, rfl⟩ := List.exists_cons_of_ne_nil hne
    have hreal : r.isNoChange = false := by
      rw [e] at halt
      have := halt.neighbours
      cases h : r.isNoChange
      · rfl
      · rw [h] at this; simp [Change.isNoChange] at this
    obtain ⟨cc, hcc, hrc⟩ := find r (by rw [e]; simp) hreal
    refine ⟨cc, hcc, ?_⟩
    obtain ⟨init, lead, mid, trail, tail, s1, s2, s3, s4, s5, s6, s7, s8⟩ := hs cc hcc
    have hmid : r ∈ mid := by
      rw [s2] at hrc
      simp only [List.mem_append] at hrc
      rcases hrc with (h | h) | h
      · rcases s7 with ⟨-, rfl⟩ | ⟨_, _, -, -, rfl⟩
        · simp at h
        · rw [List.mem_singleton.1 h] at hreal; simp [Change.isNoChange] at hreal
      · exact h
      · rcases s8 with ⟨-, rfl⟩ | ⟨_, _, -, -, rfl⟩
        · simp at h
        · rw [List.mem_singleton.1 h] at hreal; simp [Change.isNoChange] at hreal
    obtain ⟨m1, m2, rfl⟩ := List.append_of_mem hmid
    have hpr := hp r (by rw [e]; simp)
    rw [e] at ht s1
    have e2 : pre ++ Change.noChange k :: r :: post0 = (pre ++ [.noChange k]) ++ r :: post0 := by simp
    rw [e2] at ht s1
    obtain ⟨h2, -⟩ := ht.place (a' := init ++ m1) (b' := m2 ++ tail) hpr (by rw [s1]; simp)
    rcases List.eq_nil_or_concat m1 with rfl | ⟨m1, d, rfl⟩
    · rw [List.append_nil] at h2
      subst h2
      rcases s7 with ⟨h, -⟩ | ⟨init', d, h, -, rfl⟩
      · simp at h
      · obtain ⟨hi, hd⟩ := List.append_inj' h rfl
        simp only [List.cons.injEq, Change.noChange.injEq, and_true] at hd
        subst hd
        refine ⟨.noChange ⟨k.b + k.n - min ctx k.n, k.a + k.n - min ctx k.n, min ctx k.n⟩, by rw [s2]; simp, ?_⟩
        simp only [Change.new]
        omega
    · rw [List.concat_eq_append, ← List.append_assoc] at h2
      obtain ⟨-, h⟩ := List.append_inj' h2 rfl
      simp only [List.cons.injEq, and_true] at h
      subst h
      refine ⟨.noChange k, by rw [s2]; simp, ?_⟩
      simp only [Change.new]
      exact whole

/-! ## The exact output -/

theorem gaps_ge {skip : CommonSubsequence → Prop} {before after : List T} {i j : Nat} {cs : List (DiffClump T)}
    (h : Diffed skip before after i j cs before.length after.length) : ∀ g ∈ gaps before i j cs, j ≤ g.a := by
  induction cs generalizing i j with
  | nil => intro g hg; simp only [gaps, List.mem_singleton] at hg; rw [hg]; exact Nat.le_refl _
  | cons c cs ih =>
    obtain ⟨⟨n, h1, h2, hs⟩, h3, h4, h5⟩ := h
    intro g hg
    rcases List.mem_cons.1 hg with rfl | hg
    · exact Nat.le_refl _
    · have := ih h5 g hg
      omega

/-- Every place of the patched text lies in a clump, and has the item of `after`, or in a stretch left out, and has the item
of `before`. -/
theorem Diffed.patched_exact {skip : CommonSubsequence → Prop} {before after : List T} {i j : Nat} {cs : List (DiffClump T)}
    (h : Diffed skip before after i j cs before.length after.length) (k : Nat) (h1 : j ≤ k) (h2 : k < after.length) :
    ((∃ c ∈ cs, c.after.start ≤ k ∧ k < c.after.start + c.after.items.length) ∧
      (patchedFrom before 0 i cs)[k - j]? = after[k]? ∧ ∀ g ∈ gaps before i j cs, ∀ u < g.n, k ≠ g.a + u) ∨
    (∃ g ∈ gaps before i j cs, ∃ u < g.n, k = g.a + u ∧ (patchedFrom before 0 i cs)[k - j]? = before[g.b + u]? ∧
      ∀ c ∈ cs, ¬ (c.after.start ≤ k ∧ k < c.after.start + c.after.items.length)) := by
  induction cs generalizing i j with
  | nil =>
    obtain ⟨n, e1, e2, -⟩ := h
    refine .inr ⟨⟨i, j, before.length - i⟩, by simp [gaps], k - j, ?_, ?_, ?_, by simp⟩
    · show k - j < before.length - i; omega
    · show k = j + (k - j); omega
    · simp only [patchedFrom, List.getElem?_drop]
  | cons c cs ih =>
    have hb := h.bounds.2.2.2 c (by simp)
    have hge := gaps_ge h
    obtain ⟨⟨n, e1, e2, hs⟩, e3, e4, e5⟩ := h
    have hge' := gaps_ge e5
    have hbs := e5.bounds.2.2.2
    have e : (c.before.start + 0 : Int).toNat = c.before.start := by omega
    have hn : (cut before i c.before.start).length = n := by
      rw [length_cut _ _ _ (by omega)]; omega
    simp only [patchedFrom, e, List.append_assoc, gaps]
    rcases Nat.lt_or_ge (k - j) n with ht | ht
    · refine .inr ⟨_, List.mem_cons_self, k - j, ?_, ?_, ?_, ?_⟩
      · show k - j < c.before.start - i; omega
      · show k = j + (k - j); omega
      · rw [List.getElem?_append_left (by omega), cut_getElem?, if_pos (by omega)]
      · intro d hd
        rcases List.mem_cons.1 hd with rfl | hd
        · omega
        · have := hbs d hd; omega
    · rw [List.getElem?_append_right (by omega), hn]
      rcases Nat.lt_or_ge (k - j - n) c.after.items.length with hm | hm
      · refine .inl ⟨⟨c, by simp, by omega, by omega⟩, ?_, ?_⟩
        · rw [List.getElem?_append_left hm]
          have h4' := congrArg (fun l => l[k - j - n]?) e4
          simp only [cut_getElem?] at h4'
          rw [h4', if_pos (by omega)]
          congr 1
          omega
        · intro g hg u hu
          rcases List.mem_cons.1 hg with rfl | hg
          · simp only at hu ⊢; omega
          · have := hge' g hg; omega
      · rw [List.getElem?_append_right hm,
          show k - j - n - c.after.items.length = k - (c.after.start + c.after.items.length) by omega]
        rcases ih e5 (by omega) with ⟨⟨d, hd, g1, g2⟩, g3, g4⟩ | ⟨g, hg, u, hu, g1, g2, g3⟩
        · refine .inl ⟨⟨d, by simp [hd], g1, g2⟩, g3, ?_⟩
          intro g hg u hu
          rcases List.mem_cons.1 hg with rfl | hg
          · simp only at hu ⊢; omega
          · exact g4 g hg u hu
        · refine .inr ⟨g, by simp [hg], u, hu, g1, g2, ?_⟩
          intro d hd
          rcases List.mem_cons.1 hd with rfl | hd
          · omega
          · exact g3 d hd

theorem Tiles.kept_unique {i j ie je : Nat} {changes : List Change} (ht : Tiles i j changes ie je) {x y x' y' : Nat}
    (h : Kept changes x y) (h' : Kept changes x' y') : x = x' ↔ y = y' := by
  obtain ⟨c, hc, t, h1, h2, h3⟩ := h
  obtain ⟨c', hc', t', h1', h2', h3'⟩ := h'
  obtain ⟨a, b, e⟩ := List.append_of_mem hc
  obtain ⟨a', b', e'⟩ := List.append_of_mem hc'
  rw [e] at ht e'
  constructor
  · intro hx
    have := ht.unique e' (.inr ⟨x, by simp only [Change.old]; omega⟩)
    obtain rfl := Change.noChange.inj this.2.1
    omega
  · intro hy
    have := ht.unique e' (.inl ⟨y, by simp only [Change.new]; omega⟩)
    obtain rfl := Change.noChange.inj this.2.1
    omega

theorem LeftOut.kept {ctx : Nat} {changes : List Change} {x y : Nat} (h : LeftOut ctx changes x y) : Kept changes x y := by
  obtain ⟨pre, k, post, t, e, g1, g2, g3, -⟩ := h
  exact ⟨k, by rw [e]; simp, t, g1, g2, g3⟩

theorem Skip.kept {changes : List Change} {g : CommonSubsequence} (hg : Skip changes g) {u : Nat} (hu : u < g.n) :
    Kept changes (g.b + u) (g.a + u) := by
  rcases hg with hg | ⟨c, hc, s1, s2, s3⟩
  · omega
  · exact ⟨c, hc, g.b + u - c.b, by omega, by omega, by omega⟩

/-- The stretches between the clumps of a diff consist of exactly the pairs that are left out. -/
theorem leftOut_iff_gap [DecidableEq T] [Item T] [LawfulItem T] {p : Profile} {before after : List T} {ctx : Nat}
    {cs : List (DiffClump T)} {changes : List Change} (h : diffClumps p before after ctx = .ok cs)
    (hch : changesOf p before after = .ok changes)
    (hd : Diffed (Skip changes) before after 0 0 cs before.length after.length) (x y : Nat) :
    LeftOut ctx changes x y ↔ ∃ g ∈ gaps before 0 0 cs, ∃ u < g.n, x = g.b + u ∧ y = g.a + u := by
  obtain ⟨changes', ccs, e1, e2, e3, e4, e5⟩ := diffClumps_spec p before after ctx
  obtain rfl := Outcome.ok_inj (hch.symm.trans e1)
  obtain rfl := Outcome.ok_inj (e5.symm.trans h)
  have ht := changes_tiles p before after changes hch
  obtain ⟨hp, halt⟩ := changes_proper hch
  have hst := changeClumps_stretch ctx changes halt ccs e2
  have hspan : ∀ cc ∈ ccs, ∃ i j ie je, Tiles i j cc.changes ie je ∧ (toDiffClump before after cc).after.start = j ∧
      (toDiffClump before after cc).after.start + (toDiffClump before after cc).after.items.length = je := by
    intro cc hcc
    obtain ⟨i, j, ie, je, htc⟩ := e3.cover.mem cc hcc
    have hin := e4.inside.2.2 cc.ranges (List.mem_map_of_mem hcc)
    refine ⟨i, j, ie, je, htc, ?_, ?_⟩
    · simp only [toDiffClump, htc.ranges (e3.each cc hcc).ne_nil]
    · simp only [toDiffClump]
      rw [length_cut _ _ _ hin.2.2.2]
      have := hin.2.2.1
      rw [htc.ranges (e3.each cc hcc).ne_nil] at this ⊢
      simp only at this ⊢
      omega
  have hmemle : ∀ {i j ie je : Nat} {l : List Change}, Tiles i j l ie je → ∀ c ∈ l, j ≤ c.new.start ∧ c.new.fin ≤ je := by
    intro i j ie je l hl c hc
    obtain ⟨a, b, e⟩ := List.append_of_mem hc
    rw [e] at hl
    have h1 := hl.at
    have h2 := h1.1.le
    have h3 := h1.2.2.2.le
    omega
  constructor
  · intro hl
    have hk := hl.kept
    have hy : y < after.length := by
      obtain ⟨c, hc, t, h1, h2, h3⟩ := hk
      have := (hmemle ht _ hc).2
      simp only [Change.new] at this
      omega
    rcases hd.patched_exact y (Nat.zero_le _) hy with ⟨⟨c, hc, g1, g2⟩, -⟩ | ⟨g, hg, u, hu, g1, -⟩
    · obtain ⟨cc, hcc, rfl⟩ := List.mem_map.1 hc
      obtain ⟨i, j, ie, je, htc, f1, f2⟩ := hspan cc hcc
      exact absurd ⟨by omega, by omega⟩ (hl.notIn ht (hst cc hcc) htc)
    · have := (hd.gaps_skip g hg).kept hu
      exact ⟨g, hg, u, hu, (ht.kept_unique hk this).2 g1, g1⟩
  · rintro ⟨g, hg, u, hu, rfl, rfl⟩
    have hk := (hd.gaps_skip g hg).kept hu
    have hy : g.a + u < after.length := by
      obtain ⟨c, hc, t, h1, h2, h3⟩ := hk
      have := (hmemle ht _ hc).2
      simp only [Change.new] at this
      omega
    apply Classical.byContradiction
    intro hnl
    obtain ⟨cc, hcc, c, hc, g1, g2⟩ := hk.inClump ht hp halt e3.sameReals hst hnl
    obtain ⟨i, j, ie, je, htc, f1, f2⟩ := hspan cc hcc
    have := hmemle htc c hc
    rcases hd.patched_exact _ (Nat.zero_le _) hy with ⟨-, -, g3⟩ | ⟨-, -, -, -, -, -, g3⟩
    · exact g3 g hg u hu rfl
    · exact g3 _ (List.mem_map_of_mem hcc) ⟨by omega, by omega⟩

/-- What a patch makes of its own source. -/
theorem patched_leftOut [DecidableEq T] [Item T] [LawfulItem T] {p : Profile} {before after : List T} {ctx : Nat}
    {cs : List (DiffClump T)} {changes : List Change} (h : diffClumps p before after ctx = .ok cs)
    (hch : changesOf p before after = .ok changes)
    (hd : Diffed (Skip changes) before after 0 0 cs before.length after.length) (y : Nat) :
    (∀ x, LeftOut ctx changes x y → (patchedFrom before 0 0 cs)[y]? = before[x]?) ∧
      ((∀ x, ¬ LeftOut ctx changes x y) → (patchedFrom before 0 0 cs)[y]? = after[y]?) := by
  have ht := changes_tiles p before after changes hch
  have hlen := hd.patched.1
  by_cases hy : y < after.length
  · have key := hd.patched_exact y (Nat.zero_le _) hy
    rw [Nat.sub_zero] at key
    constructor
    · intro x hl
      obtain ⟨g, hg, u, hu, rfl, e⟩ := (leftOut_iff_gap h hch hd x y).1 hl
      rcases key with ⟨-, -, h3⟩ | ⟨g', hg', u', hu', e', h3, -⟩
      · exact absurd e (h3 g hg u hu)
      · rw [h3]
        congr 1
        exact (ht.kept_unique ((hd.gaps_skip g' hg').kept hu') ((hd.gaps_skip g hg).kept hu)).2 (by omega)
    · intro hn
      rcases key with ⟨-, h3, -⟩ | ⟨g', hg', u', hu', e', h3, -⟩
      · exact h3
      · exact absurd ((leftOut_iff_gap h hch hd _ y).2 ⟨g', hg', u', hu', rfl, e'⟩) (hn _)
  · constructor
    · intro x hl
      obtain ⟨c, hc, t, h1, h2, h3⟩ := hl.kept
      obtain ⟨a, b, e⟩ := List.append_of_mem hc
      rw [e] at ht
      have := ht.at.2.2.2.le
      simp only [Change.new] at this
      omega
    · intro _
      rw [List.getElem?_eq_none (by omega), List.getElem?_eq_none (by omega)]

/-- What a patch, in reverse, makes of its own target. -/
theorem unpatched_leftOut [DecidableEq T] [Item T] [LawfulItem T] {p : Profile} {before after : List T} {ctx : Nat}
    {cs : List (DiffClump T)} {changes : List Change} (h : diffClumps p before after ctx = .ok cs)
    (hch : changesOf p before after = .ok changes)
    (hd : Diffed (Skip changes) before after 0 0 cs before.length after.length) (x : Nat) :
    (∀ y, LeftOut ctx changes x y → (patchedFrom after 0 0 (cs.map DiffClump.swap))[x]? = after[y]?) ∧
      ((∀ y, ¬ LeftOut ctx changes x y) → (patchedFrom after 0 0 (cs.map DiffClump.swap))[x]? = before[x]?) := by
  have ht := changes_tiles p before after changes hch
  have hlen := hd.swap.patched.1
  by_cases hx : x < before.length
  · have key := hd.swap.patched_exact x (Nat.zero_le _) hx
    rw [Nat.sub_zero, gaps_swap hd] at key
    constructor
    · intro y hl
      obtain ⟨g, hg, u, hu, e, rfl⟩ := (leftOut_iff_gap h hch hd x y).1 hl
      rcases key with ⟨-, -, h3⟩ | ⟨g', hg', u', hu', e', h3, -⟩
      · exact absurd e (h3 _ (List.mem_map_of_mem hg) u hu)
      · obtain ⟨g', hm, rfl⟩ := List.mem_map.1 hg'
        rw [h3]
        congr 1
        exact (ht.kept_unique ((hd.gaps_skip g' hm).kept hu') ((hd.gaps_skip g hg).kept hu)).1 (e'.symm.trans e)
    · intro hn
      rcases key with ⟨-, h3, -⟩ | ⟨g', hg', u', hu', e', h3, -⟩
      · exact h3
      · obtain ⟨g', hm, rfl⟩ := List.mem_map.1 hg'
        exact absurd ((leftOut_iff_gap h hch hd x _).2 ⟨g', hm, u', hu', e', rfl⟩) (hn _)
  · constructor
    · intro y hl
      obtain ⟨c, hc, t, h1, h2, h3⟩ := hl.kept
      obtain ⟨a, b, e⟩ := List.append_of_mem hc
      rw [e] at ht
      have := ht.at.2.2.2.le
      simp only [Change.old] at this
      omega
    · intro _
      rw [List.getElem?_eq_none (by omega), List.getElem?_eq_none (by omega)]

/-- A kept pair of different items is not the first of its block, and the pairs before and after it are equal. -/
theorem kept_isolated [DecidableEq T] [Item T] [LawfulItem T] {p : Profile} {before after : List T} {changes : List Change}
    (h : changesOf p before after = .ok changes) {j i : Nat} (hk : Kept changes j i) (hn : ¬ Hit before after j i) :
    ∃ j' i', j = j' + 1 ∧ i = i' + 1 ∧ Hit before after j' i' ∧ Kept changes j' i' ∧ Hit before after (j' + 2) (i' + 2) := by
  obtain ⟨cs, h', hg, d, hd, rfl⟩ := changesOf_spec p before after
  obtain rfl := Outcome.ok_inj (h'.symm.trans h)
  simp only [gen_kept, mergeAdjacent_covered] at hk ⊢
  obtain ⟨c, hc, t, ht, rfl, rfl⟩ := hk
  obtain ⟨n, hn', -, h1, h2⟩ := hd.spec.2.2 c hc
  rcases Nat.lt_trichotomy t n with h | h | h
  · exact absurd (h1 t h) hn
  · subst h
    have a1 := h1 (t - 1) (by omega)
    have a2 := (h2 (by omega)).2 0 (by omega)
    refine ⟨c.b + (t - 1), c.a + (t - 1), by omega, by omega, a1, ⟨c, hc, t - 1, by omega, rfl, rfl⟩, ?_⟩
    rw [show c.b + t + 1 + 0 = c.b + (t - 1) + 2 by omega, show c.a + t + 1 + 0 = c.a + (t - 1) + 2 by omega] at a2
    exact a2
  · have := (h2 (by omega)).2 (t - n - 1) (by omega)
    rw [show c.b + n + 1 + (t - n - 1) = c.b + t by omega, show c.a + n + 1 + (t - n - 1) = c.a + t by omega] at this
    exact absurd this hn

/-- A wrong item of the patched text is not the first and not the last one, and the item before it is right. -/
theorem patched_isolated [DecidableEq T] [Item T] [LawfulItem T] {p : Profile} {before after : List T} {ctx : Nat}
    {cs : List (DiffClump T)} {changes : List Change} (h : diffClumps p before after ctx = .ok cs)
    (hch : changesOf p before after = .ok changes)
    (hd : Diffed (Skip changes) before after 0 0 cs before.length after.length) (y : Nat)
    (hw : (patchedFrom before 0 0 cs)[y]? ≠ after[y]?) :
    1 ≤ y ∧ y + 1 < after.length ∧ (patchedFrom before 0 0 cs)[y - 1]? = after[y - 1]? := by
  have ht := changes_tiles p before after changes hch
  obtain ⟨x, hl⟩ : ∃ x, LeftOut ctx changes x y := by
    apply Classical.byContradiction
    intro hn
    exact hw ((patched_leftOut h hch hd y).2 fun x hl => hn ⟨x, hl⟩)
  have hx := (patched_leftOut h hch hd y).1 x hl
  have hnh : ¬ Hit before after x y := by
    rintro ⟨z, h1, h2⟩
    exact hw (by rw [hx, h1, h2])
  obtain ⟨j, i, rfl, rfl, h1, h2, h3⟩ := kept_isolated hch hl.kept hnh
  have hlt : i + 2 < after.length := by
    obtain ⟨z, -, z2⟩ := h3
    exact (List.getElem?_eq_some_iff.1 z2).1
  refine ⟨by omega, by omega, ?_⟩
  rw [Nat.add_sub_cancel]
  by_cases hex : ∃ x, LeftOut ctx changes x i
  · obtain ⟨x, hl2⟩ := hex
    obtain rfl := (ht.kept_unique hl2.kept h2).2 rfl
    obtain ⟨z, z1, z2⟩ := h1
    rw [(patched_leftOut h hch hd i).1 x hl2, z1, z2]
  · exact (patched_leftOut h hch hd i).2 fun x hl => hex ⟨x, hl⟩

/-- The same for the reverse patch. -/
theorem unpatched_isolated [DecidableEq T] [Item T] [LawfulItem T] {p : Profile} {before after : List T} {ctx : Nat}
    {cs : List (DiffClump T)} {changes : List Change} (h : diffClumps p before after ctx = .ok cs)
    (hch : changesOf p before after = .ok changes)
    (hd : Diffed (Skip changes) before after 0 0 cs before.length after.length) (x : Nat)
    (hw : (patchedFrom after 0 0 (cs.map DiffClump.swap))[x]? ≠ before[x]?) :
    1 ≤ x ∧ x + 1 < before.length ∧ (patchedFrom after 0 0 (cs.map DiffClump.swap))[x - 1]? = before[x - 1]? := by
  have ht := changes_tiles p before after changes hch
  obtain ⟨y, hl⟩ : ∃ y, LeftOut ctx changes x y := by
    apply Classical.byContradiction
    intro hn
    exact hw ((unpatched_leftOut h hch hd x).2 fun y hl => hn ⟨y, hl⟩)
  have hy := (unpatched_leftOut h hch hd x).1 y hl
  have hnh : ¬ Hit before after x y := by
    rintro ⟨z, h1, h2⟩
    exact hw (by rw [hy, h1, h2])
  obtain ⟨j, i, rfl, rfl, h1, h2, h3⟩ := kept_isolated hch hl.kept hnh
  have hlt : j + 2 < before.length := by
    obtain ⟨z, z1, -⟩ := h3
    exact (List.getElem?_eq_some_iff.1 z1).1
  refine ⟨by omega, by omega, ?_⟩
  rw [Nat.add_sub_cancel]
  by_cases hex : ∃ y, LeftOut ctx changes j y
  · obtain ⟨y, hl2⟩ := hex
    obtain rfl := (ht.kept_unique hl2.kept h2).1 rfl
    obtain ⟨z, z1, z2⟩ := h1
    rw [(unpatched_leftOut h hch hd j).1 y hl2, z1, z2]
  · exact (unpatched_leftOut h hch hd j).2 fun y hl => hex ⟨y, hl⟩

theorem LeftOut.mono {ctx ctx' : Nat} {changes : List Change} {x y : Nat} (hc : ctx ≤ ctx') (h : LeftOut ctx' changes x y) :
    LeftOut ctx changes x y := by
  obtain ⟨pre, k, post, t, e, g1, g2, g3, g4, g5⟩ := h
  exact ⟨pre, k, post, t, e, g1, g2, g3, fun h => by have := g4 h; omega, fun h => by have := g5 h; omega⟩

end PwDiff
