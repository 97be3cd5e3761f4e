import Verif.Props.Moves
import Verif.Props.Clean
import Verif.Props.Context

/-! # C133: more context is more cautious -/

namespace PwDiff

section

variable {T : Type}

/-- Where the gaps of another file end, the patch knows nothing; otherwise they are those of the file the patch was made for. -/
theorem gaps_elsewhere {skip : CommonSubsequence → Prop} {before after l : List T} {i j : Nat} {cs : List (DiffClump T)}
    (h : Diffed skip before after i j cs before.length after.length) {g : CommonSubsequence} (hg : g ∈ gaps l i j cs) {u : Nat}
    (hu : u < g.n) :
    (∃ g' ∈ gaps before i j cs, ∃ u' < g'.n, g.b + u = g'.b + u' ∧ g.a + u = g'.a + u') ∨
      after.length ≤ g.a + u ∧ g.b + u + after.length = g.a + u + before.length := by
  induction cs generalizing i j with
  | nil =>
    obtain ⟨n, e1, e2, -⟩ := h
    simp only [gaps, List.mem_singleton] at hg ⊢
    subst hg
    simp only at hu ⊢
    by_cases hn : u < n
    · exact .inl ⟨_, rfl, u, by simp only; omega, rfl, rfl⟩
    · exact .inr (by omega)
  | cons c cs ih =>
    simp only [gaps, List.mem_cons] at hg ⊢
    rcases hg with rfl | hg
    · exact .inl ⟨_, .inl rfl, u, hu, rfl, rfl⟩
    · rcases ih h.2.2.2 hg with ⟨g', h1, h2⟩ | h
      · exact .inl ⟨g', .inr h1, h2⟩
      · exact .inr h

theorem Tiles.kept_lt {i j ie je : Nat} {changes : List Change} (ht : Tiles i j changes ie je) {x y : Nat} (h : Kept changes x y) :
    y < je := by
  obtain ⟨c, hc, t, h1, h2, h3⟩ := h
  obtain ⟨a, b, e⟩ := List.append_of_mem hc
  rw [e] at ht
  have := ht.at.2.2.2.le
  simp only [Change.new] at this
  omega

variable [DecidableEq T] [Item T] [LawfulItem T]

section

variable {p : Profile} {before after : List T} {context context' : Nat} {cs cs' : List (DiffClump T)} {changes : List Change}

/-- The new items of a clump with less context are in the clumps with more context. -/
theorem wider_new (hle : context ≤ context') (hch : changesOf p before after = .ok changes)
    (h : diffClumps p before after context = .ok cs) (h' : diffClumps p before after context' = .ok cs')
    (hd : Diffed (Skip changes) before after 0 0 cs before.length after.length)
    (hd' : Diffed (Skip changes) before after 0 0 cs' before.length after.length) {c : DiffClump T} (hc : c ∈ cs) {y : Nat}
    (hy : c.after.start ≤ y ∧ y < c.after.start + c.after.items.length) :
    ∃ c' ∈ cs', c'.after.start ≤ y ∧ y < c'.after.start + c'.after.items.length := by
  have hb := hd.bounds.2.2.2 c hc
  rcases hd'.patched_exact y (Nat.zero_le _) (by omega) with ⟨⟨c', hc', h1⟩, -⟩ | ⟨g, hg, u, hu, e, -⟩
  · exact ⟨c', hc', h1⟩
  · exfalso
    have hl := ((leftOut_iff_gap h' hch hd' _ _).2 ⟨g, hg, u, hu, rfl, rfl⟩).mono hle
    obtain ⟨g', hg', u', hu', e1, e2⟩ := (leftOut_iff_gap h hch hd _ _).1 hl
    rcases hd.patched_exact y (Nat.zero_le _) (by omega) with ⟨-, -, h3⟩ | ⟨-, -, -, -, -, -, h3⟩
    · exact h3 g' hg' u' hu' (by omega)
    · exact h3 c hc hy

/-- The old items of a clump with less context are in the clumps with more context. -/
theorem wider_old (hle : context ≤ context') (hch : changesOf p before after = .ok changes)
    (h : diffClumps p before after context = .ok cs) (h' : diffClumps p before after context' = .ok cs')
    (hd : Diffed (Skip changes) before after 0 0 cs before.length after.length)
    (hd' : Diffed (Skip changes) before after 0 0 cs' before.length after.length) {c : DiffClump T} (hc : c ∈ cs) {x : Nat}
    (hx : c.before.start ≤ x ∧ x < c.before.start + c.before.items.length) :
    ∃ c' ∈ cs', c'.before.start ≤ x ∧ x < c'.before.start + c'.before.items.length := by
  have hb := hd.bounds.2.2.2 c hc
  rcases hd'.swap.patched_exact x (Nat.zero_le _) (by omega) with ⟨⟨c', hc', h1⟩, -⟩ | ⟨g, hg, u, hu, e, -⟩
  · obtain ⟨c'', hc'', rfl⟩ := List.mem_map.1 hc'
    exact ⟨c'', hc'', h1⟩
  · exfalso
    rw [gaps_swap hd'] at hg
    obtain ⟨g, hm, rfl⟩ := List.mem_map.1 hg
    have hl := ((leftOut_iff_gap h' hch hd' _ _).2 ⟨g, hm, u, hu, rfl, rfl⟩).mono hle
    obtain ⟨g', hg', u', hu', e1, e2⟩ := (leftOut_iff_gap h hch hd _ _).1 hl
    simp only at e hu
    have key := hd.swap.patched_exact x (Nat.zero_le _) (by omega)
    rw [gaps_swap hd] at key
    rcases key with ⟨-, -, h3⟩ | ⟨-, -, -, -, -, -, h3⟩
    · exact h3 _ (List.mem_map_of_mem hg') u' hu' (by simp only; omega)
    · exact h3 _ (List.mem_map_of_mem hc) hx

/-- Every clump with less context begins no later than some clump with more context ends. -/
theorem wider_start (hch : changesOf p before after = .ok changes)
    (h : diffClumps p before after context = .ok cs) (h' : diffClumps p before after context' = .ok cs')
    {c : DiffClump T} (hc : c ∈ cs) :
    ∃ c' ∈ cs', c.before.start ≤ c'.before.start + c'.before.items.length := by
  obtain ⟨changes1, ccs, e1, e2, e3, e4, e5⟩ := diffClumps_spec p before after context
  obtain rfl := Outcome.ok_inj (hch.symm.trans e1)
  obtain rfl := Outcome.ok_inj (e5.symm.trans h)
  obtain ⟨changes2, ccs', e1', e2', e3', e4', e5'⟩ := diffClumps_spec p before after context'
  obtain rfl := Outcome.ok_inj (hch.symm.trans e1')
  obtain rfl := Outcome.ok_inj (e5'.symm.trans h')
  obtain ⟨hp, halt⟩ := changes_proper hch
  have hst := changeClumps_stretch context changes halt ccs e2
  obtain ⟨cc, hcc, rfl⟩ := List.mem_map.1 hc
  obtain ⟨init, lead, mid, trail, tail, s1, s2, s3, s4, s5, s6, s7, s8⟩ := hst cc hcc
  obtain ⟨r, mid', rfl⟩ := List.exists_cons_of_ne_nil s3
  have hreal : r.isNoChange = false := s4 r (by simp)
  have hrc : r ∈ cc.changes := by rw [s2]; simp
  have hr : r ∈ reals changes := mem_reals.2 ⟨by rw [s1]; simp, hreal⟩
  rw [← e3'.sameReals] at hr
  obtain ⟨cc', hcc', hr'⟩ := List.mem_flatMap.1 hr
  have hr' := (mem_reals.1 hr').1
  have hmemle : ∀ {i j ie je : Nat} {l : List Change}, Tiles i j l ie je → ∀ c ∈ l, i ≤ c.old.start ∧ c.old.start ≤ c.old.fin ∧ c.old.fin ≤ ie := by
    intro i j ie je l hl c hc
    obtain ⟨a, b, e⟩ := List.append_of_mem hc
    rw [e] at hl
    have h1 := hl.at
    have h2 := h1.1.le
    have h3 := h1.2.2.2.le
    omega
  refine ⟨_, List.mem_map_of_mem hcc', ?_⟩
  obtain ⟨i, j, ie, je, ht⟩ := e3.cover.mem cc hcc
  obtain ⟨i', j', ie', je', ht'⟩ := e3'.cover.mem cc' hcc'
  have a1 := hmemle ht r hrc
  have a2 := hmemle ht' r hr'
  have hin := e4'.inside.2.2 cc'.ranges (List.mem_map_of_mem hcc')
  have g1 := ht.ranges (e3.each cc hcc).ne_nil
  have g2 := ht'.ranges (e3'.each cc' hcc').ne_nil
  simp only [toDiffClump]
  rw [length_cut _ _ _ hin.2.1, g1, g2]
  simp only
  omega

end

/-- The old items of all clumps with less context stand in a file if those of the clumps with more context do. -/
theorem wider_stands {p : Profile} {before after : List T} {context context' : Nat} {cs cs' : List (DiffClump T)} {changes : List Change}
    (hle : context ≤ context') (hch : changesOf p before after = .ok changes)
    (h : diffClumps p before after context = .ok cs) (h' : diffClumps p before after context' = .ok cs')
    (hd : Diffed (Skip changes) before after 0 0 cs before.length after.length)
    (hd' : Diffed (Skip changes) before after 0 0 cs' before.length after.length) {l : List T}
    (hs : ∀ c ∈ cs', StandsAt c.before.items l c.before.start) : ∀ c ∈ cs, StandsAt c.before.items l c.before.start := by
  intro c hc
  have hold : ∀ x, c.before.start ≤ x → x < c.before.start + c.before.items.length → x < l.length ∧ l[x]? = before[x]? := by
    intro x h1 h2
    obtain ⟨c', hc', h3, h4⟩ := wider_old hle hch h h' hd hd' hc ⟨h1, h2⟩
    obtain ⟨-, s1, s2⟩ := (standsAt_iff _ _ _).1 (hs c' hc')
    have e : (c'.before.start : Int).toNat = c'.before.start := by omega
    rw [e] at s1 s2
    have s3 := (hd'.stands c' hc').1
    obtain ⟨-, t1, t2⟩ := (standsAt_iff _ _ _).1 s3
    rw [e] at t1 t2
    refine ⟨by omega, ?_⟩
    have := congrArg (fun z => z[x - c'.before.start]?) (s2.trans t2.symm)
    simp only [cut_getElem?] at this
    rw [if_pos (by omega), if_pos (by omega), show c'.before.start + (x - c'.before.start) = x by omega] at this
    exact this
  obtain ⟨-, t1, t2⟩ := (standsAt_iff _ _ _).1 (hd.stands c hc).1
  rw [standsAt_iff]
  have e : (c.before.start : Int).toNat = c.before.start := by omega
  rw [e] at t1 t2 ⊢
  refine ⟨by omega, ?_, ?_⟩
  · rcases Nat.eq_zero_or_pos c.before.items.length with h0 | h0
    · obtain ⟨c', hc', h3⟩ := wider_start hch h h' hc
      obtain ⟨-, s1, s2⟩ := (standsAt_iff _ _ _).1 (hs c' hc')
      omega
    · have := (hold (c.before.start + c.before.items.length - 1) (by omega) (by omega)).1
      omega
  · rw [← t2]
    apply List.ext_getElem?
    intro t
    rw [cut_getElem?, cut_getElem?]
    by_cases ht : t < c.before.items.length
    · have hl : (cut before c.before.start (c.before.start + c.before.items.length)).length = c.before.items.length := by rw [t2]
      rw [hl, if_pos (by omega), if_pos (by omega)]
      exact (hold _ (by omega) (by omega)).2
    · have hl : (cut before c.before.start (c.before.start + c.before.items.length)).length = c.before.items.length := by rw [t2]
      rw [hl, if_neg (by omega), if_neg (by omega)]

/-- If a patch made with more context applies to a file with every clump clean, so does the one made with less context. -/
theorem C133_cautious (p q : Profile) (before after : List T) (context context' : Nat) (hle : context ≤ context')
    (hctx : context' ≤ 255) (hb : before.length ≤ maxLines) (ha : after.length ≤ maxLines) (cs cs' : List (DiffClump T))
    (h : diffClumps p before after context = .ok cs) (h' : diffClumps p before after context' = .ok cs') (l : List T)
    (hl : l.length + after.length ≤ maxLines) (hc : (applyInto q cs' l false).run.1 = .ok { clean := cs'.length }) :
    (applyInto q cs l false).run.1 = .ok { clean := cs.length } := by
  rw [(C83_clean p q q before after context' hctx hb ha cs' h' l hl).1] at hc
  rw [(C83_clean p q q before after context (by omega) hb ha cs h l hl).1]
  obtain ⟨-, changes, hch, hd⟩ := diffClumps_full (by omega) h
  obtain ⟨-, changes', hch', hd'⟩ := diffClumps_full hctx h'
  obtain rfl := Outcome.ok_inj (hch.symm.trans hch')
  exact wider_stands hle hch h h' hd hd' hc

/-- What a patch makes of a file in which the old items of all its clumps stand, item by item. -/
theorem transplanted {p : Profile} {before after : List T} {context : Nat} {cs : List (DiffClump T)} {changes : List Change}
    (hch : changesOf p before after = .ok changes) (h : diffClumps p before after context = .ok cs)
    (hd : Diffed (Skip changes) before after 0 0 cs before.length after.length) {l : List T}
    (hs : ∀ c ∈ cs, StandsAt c.before.items l c.before.start) {k : Nat} (hk : k < (patchedFrom l 0 0 cs).length) :
    ((∃ c ∈ cs, c.after.start ≤ k ∧ k < c.after.start + c.after.items.length) ∧ (patchedFrom l 0 0 cs)[k]? = after[k]? ∧
        k < after.length) ∨
      (∀ c ∈ cs, ¬ (c.after.start ≤ k ∧ k < c.after.start + c.after.items.length)) ∧
        ∃ j, (patchedFrom l 0 0 cs)[k]? = l[j]? ∧
          (LeftOut context changes j k ∨ after.length ≤ k ∧ j + after.length = k + before.length) := by
  have hso := standInOrder_of_stands (oldInOrder_of_stand hd.standInOrder) (Nat.zero_le l.length) (fun c _ => Nat.zero_le _) hs
  have ht := hd.transplant hso (text := patchedFrom l 0 0 cs) List.drop_zero (Nat.zero_le _)
  rcases ht.patched_exact k (Nat.zero_le _) hk with ⟨⟨c, hc, h1, h2⟩, -⟩ | ⟨g, hg, u, hu, e1, e2, e3⟩
  · left
    refine ⟨⟨c, hc, h1, h2⟩, ?_⟩
    obtain ⟨-, s1, s2⟩ := (standsAt_iff _ _ _).1 (ht.stands c hc).2
    obtain ⟨-, t1, t2⟩ := (standsAt_iff _ _ _).1 (hd.stands c hc).2
    have e : (c.after.start : Int).toNat = c.after.start := by omega
    rw [e] at s1 s2 t1 t2
    have := congrArg (fun z => z[k - c.after.start]?) (s2.trans t2.symm)
    simp only [cut_getElem?] at this
    rw [if_pos (by omega), if_pos (by omega), show c.after.start + (k - c.after.start) = k by omega] at this
    exact ⟨this, by omega⟩
  · refine .inr ⟨e3, g.b + u, by simpa using e2, ?_⟩
    rcases gaps_elsewhere hd hg hu with ⟨g', hg', u', hu', f1, f2⟩ | h3
    · exact .inl ((leftOut_iff_gap h hch hd _ _).2 ⟨g', hg', u', hu', f1, by omega⟩)
    · exact .inr (by omega)

/-- What the two patches then make of the file: every item is the same, or the one of `after` if there is more context. If no single
differing pair of items stands between two equal pairs, the results are the same. -/
theorem C133_result (p q : Profile) (before after : List T) (context context' : Nat) (hle : context ≤ context')
    (hctx : context' ≤ 255) (hb : before.length ≤ maxLines) (ha : after.length ≤ maxLines) (cs cs' : List (DiffClump T))
    (h : diffClumps p before after context = .ok cs) (h' : diffClumps p before after context' = .ok cs') (l : List T)
    (hl : l.length + after.length ≤ maxLines) (hc : (applyInto q cs' l false).run.1 = .ok { clean := cs'.length }) :
    ∃ text text', (applyInto q cs l false).run = (.ok { clean := cs.length }, bytesOf text) ∧
      (applyInto q cs' l false).run = (.ok { clean := cs'.length }, bytesOf text') ∧ text.length = text'.length ∧
      (∀ k : Nat, text'[k]? = text[k]? ∨ k < after.length ∧ text'[k]? = after[k]?) ∧ (NoIsland before after → text = text') := by
  rw [(C83_clean p q q before after context' hctx hb ha cs' h' l hl).1] at hc
  obtain ⟨hi, changes, hch, hd⟩ := diffClumps_full (by omega) h
  obtain ⟨hi', changes', hch', hd'⟩ := diffClumps_full hctx h'
  obtain rfl := Outcome.ok_inj (hch.symm.trans hch')
  have hs := wider_stands hle hch h h' hd hd' hc
  have ht := changes_tiles p before after changes hch
  have hso := standInOrder_of_stands (oldInOrder_of_stand hd.standInOrder) (Nat.zero_le l.length) (fun c _ => Nat.zero_le _) hs
  have hso' := standInOrder_of_stands (oldInOrder_of_stand hd'.standInOrder) (Nat.zero_le l.length) (fun c _ => Nat.zero_le _) hc
  have hp := hd.transplant hso (text := patchedFrom l 0 0 cs) List.drop_zero (Nat.zero_le _)
  have hp' := hd'.transplant hso' (text := patchedFrom l 0 0 cs') List.drop_zero (Nat.zero_le _)
  have g1 := hd.growth hp
  have g2 := hd'.growth hp'
  have hlen : (patchedFrom l 0 0 cs).length = (patchedFrom l 0 0 cs').length := by omega
  have key : ∀ k : Nat, (patchedFrom l 0 0 cs')[k]? = (patchedFrom l 0 0 cs)[k]? ∨
      k < after.length ∧ (patchedFrom l 0 0 cs')[k]? = after[k]? ∧ (NoIsland before after →
        (patchedFrom l 0 0 cs)[k]? = after[k]?) := by
    intro k
    by_cases hk : k < (patchedFrom l 0 0 cs).length
    · rcases transplanted hch h hd hs hk with ⟨⟨c, hcm, h1⟩, h2, h3⟩ | ⟨h1, j, h2, h3⟩
      · obtain ⟨c', hc', h4⟩ := wider_new hle hch h h' hd hd' hcm h1
        rcases transplanted hch h' hd' hc (hlen ▸ hk) with ⟨-, h5, -⟩ | ⟨h5, -⟩
        · left; rw [h5, h2]
        · exact absurd h4 (h5 c' hc')
      · rcases transplanted hch h' hd' hc (hlen ▸ hk) with ⟨⟨c', hc', h4⟩, h5, h6⟩ | ⟨h4, j', h5, h6⟩
        · right
          refine ⟨h6, h5, fun hni => ?_⟩
          have hlo : LeftOut context changes j k := h3.resolve_right (by omega)
          have hhit : Hit before after j k := by
            apply Classical.byContradiction
            intro hn
            obtain ⟨j0, i0, rfl, rfl, a1, -, a2⟩ := kept_isolated hch hlo.kept hn
            exact hn (hni _ _ a1 a2)
          obtain ⟨x, x1, x2⟩ := hhit
          have hj : j < before.length := (List.getElem?_eq_some_iff.1 x1).1
          rw [h2, x2, ← x1]
          have w := hd'.swap.patched_exact j (Nat.zero_le _) hj
          rw [gaps_swap hd'] at w
          rcases w with ⟨⟨d, hdm, d1, d2⟩, -⟩ | ⟨g, hg, u, hu, e, -⟩
          · obtain ⟨d, hm, rfl⟩ := List.mem_map.1 hdm
            simp only [DiffClump.swap] at d1 d2
            obtain ⟨-, s1, s2⟩ := (standsAt_iff _ _ _).1 (hc d hm)
            obtain ⟨-, t1, t2⟩ := (standsAt_iff _ _ _).1 (hd'.stands d hm).1
            have e : (d.before.start : Int).toNat = d.before.start := by omega
            rw [e] at s1 s2 t1 t2
            have := congrArg (fun z => z[j - d.before.start]?) (s2.trans t2.symm)
            simp only [cut_getElem?] at this
            rwa [if_pos (by omega), if_pos (by omega), show d.before.start + (j - d.before.start) = j by omega] at this
          · exfalso
            obtain ⟨g, hm, rfl⟩ := List.mem_map.1 hg
            simp only at e hu
            have hl' := (leftOut_iff_gap h' hch hd' _ _).2 ⟨g, hm, u, hu, rfl, rfl⟩
            have := (ht.kept_unique hl'.kept hlo.kept).1 e.symm
            have w := hd'.patched_exact k (Nat.zero_le _) h6
            rcases w with ⟨-, -, w⟩ | ⟨-, -, -, -, -, -, w⟩
            · exact w g hm u hu this.symm
            · exact w c' hc' h4
        · left
          rw [h5, h2]
          congr 1
          rcases h3 with h3 | h3 <;> rcases h6 with h6 | h6
          · exact (ht.kept_unique h6.kept h3.kept).2 rfl
          · exact absurd (ht.kept_lt h3.kept) (by omega)
          · exact absurd (ht.kept_lt h6.kept) (by omega)
          · omega
    · left
      rw [List.getElem?_eq_none (by omega), List.getElem?_eq_none (by omega)]
  refine ⟨_, _, ?_, ?_, hlen, fun k => (key k).imp_right fun w => ⟨w.1, w.2.1⟩, fun hni => ?_⟩
  · have : IsDiff l (patchedFrom l 0 0 cs) cs := ⟨⟨_, hp⟩, hi.ctx⟩
    rw [apply_to_source q this (by omega) (by omega), WM.run_emit]
  · have : IsDiff l (patchedFrom l 0 0 cs') cs' := ⟨⟨_, hp'⟩, hi'.ctx⟩
    rw [apply_to_source q this (by omega) (by omega), WM.run_emit]
  · apply List.ext_getElem?
    intro k
    rcases key k with w | w
    · exact w.symm
    · rw [w.2.2 hni, w.2.1]

end

/-- What one may expect in the other direction: where the patch made with less context applies cleanly, so does the other one. -/
def C133_statement : Prop :=
  ∀ (p q : Profile) (before after l : List Str) (context context' : Nat) (cs cs' : List (DiffClump Str)), context ≤ context' →
    context' ≤ 255 → diffClumps p before after context = .ok cs → diffClumps p before after context' = .ok cs' →
    (applyInto q cs l false).run.1 = .ok { clean := cs.length } → (applyInto q cs' l false).run.1 = .ok { clean := cs'.length }

/-- It is not so: a line of the additional context is another one. -/
theorem C133_refuted : ¬ C133_statement := by
  intro h
  have := h .debug .debug (letters ['a', 'b', 'c', 'd']) (letters ['a', 'b', 'c', 'X', 'd']) (letters ['q', 'b', 'c', 'd']) 1 3
    [⟨(1, 1), ⟨2, letters ['c', 'd']⟩, ⟨2, letters ['c', 'X', 'd']⟩⟩]
    [⟨(3, 1), ⟨0, letters ['a', 'b', 'c', 'd']⟩, ⟨0, letters ['a', 'b', 'c', 'X', 'd']⟩⟩] (by decide) (by decide)
    (by decide +kernel) (by decide +kernel) (by decide +kernel)
  revert this
  decide +kernel

/-- And without the condition on single pairs the results may differ, even for the file the patch was made for. -/
example := C97_refuted

example := C133_cautious .debug .release (letters ['a', 'b', 'c', 'd', 'e']) (letters ['a', 'b', 'c', 'X', 'd', 'e']) 1 2 (by decide) (by decide)
  (by decide) (by decide) [⟨(1, 1), ⟨2, letters ['c', 'd']⟩, ⟨2, letters ['c', 'X', 'd']⟩⟩]
  [⟨(2, 2), ⟨1, letters ['b', 'c', 'd', 'e']⟩, ⟨1, letters ['b', 'c', 'X', 'd', 'e']⟩⟩] (by decide +kernel) (by decide +kernel)
  (letters ['q', 'b', 'c', 'd', 'e', 'r']) (by decide) (by decide +kernel)
example := C133_result .debug .release (letters ['a', 'b', 'c', 'd', 'e']) (letters ['a', 'b', 'c', 'X', 'd', 'e']) 1 2 (by decide) (by decide)
  (by decide) (by decide) [⟨(1, 1), ⟨2, letters ['c', 'd']⟩, ⟨2, letters ['c', 'X', 'd']⟩⟩]
  [⟨(2, 2), ⟨1, letters ['b', 'c', 'd', 'e']⟩, ⟨1, letters ['b', 'c', 'X', 'd', 'e']⟩⟩] (by decide +kernel) (by decide +kernel)
  (letters ['q', 'b', 'c', 'd', 'e', 'r']) (by decide) (by decide +kernel)

end PwDiff
