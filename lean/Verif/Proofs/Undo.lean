import Verif.Proofs.Patched
import Verif.Proofs.Blocks

/-! # What a patch makes of its own source

The text `patchedFrom before 0 0 cs` that the clumps of a diff make of `before` need not be `after`, but the clumps are also
a diff between `before` and that text. -/

namespace PwDiff

variable {T : Type}

/-- The clumps of a diff are a diff between the old text and what they make of it; what they leave out is equal. -/
theorem Diffed.retarget {skip : CommonSubsequence → Prop} {before after text : List T} {i j : Nat} {cs : List (DiffClump T)}
    (h : Diffed skip before after i j cs before.length after.length) (hd : text.drop j = patchedFrom before 0 i cs)
    (hl : text.length = after.length) :
    Diffed (fun g => cut before g.b (g.b + g.n) = cut text g.a (g.a + g.n)) before text i j cs before.length text.length := by
  induction cs generalizing i j with
  | nil =>
    obtain ⟨n, h1, h2, -⟩ := h
    refine ⟨n, h1, by omega, ?_⟩
    show cut before i (i + n) = cut text j (j + n)
    rw [h1, show j + n = text.length by omega, cut_length_eq, cut_length_eq, hd]
    rfl
  | cons c cs ih =>
    have hb := h.bounds.2.2.2 c (by simp)
    obtain ⟨⟨n, h1, h2, -⟩, h3, h4, h5⟩ := h
    have e : (c.before.start + 0 : Int).toNat = c.before.start := by omega
    simp only [patchedFrom, e] at hd
    have hn : (cut before i c.before.start).length = n := by
      rw [length_cut _ _ _ (by omega)]; omega
    have hdrop : ∀ m, text.drop (j + m) = (text.drop j).drop m := by intro m; rw [List.drop_drop]
    have hrest : text.drop (c.after.start + c.after.items.length) =
        patchedFrom before 0 (c.before.start + c.before.items.length) cs := by
      rw [h2, Nat.add_assoc, hdrop, hd, List.append_assoc, ← List.drop_drop, List.drop_left' hn, List.drop_left' rfl]
    refine ⟨⟨n, h1, h2, ?_⟩, h3, ?_, ih h5 hrest⟩
    · show cut before i (i + n) = cut text j (j + n)
      rw [show i + n = c.before.start by omega]
      conv => rhs; unfold cut
      rw [hd, show j + n - j = n by omega, List.append_assoc, List.take_left' hn]
    · rw [h2]
      unfold cut
      rw [hdrop, hd, List.append_assoc, List.drop_left' hn,
        show j + n + c.after.items.length - (j + n) = c.after.items.length by omega, List.take_left' rfl]

/-- The same with everything that is used about patches. -/
theorem IsDiff.retarget {before after : List T} {cs : List (DiffClump T)} (h : IsDiff before after cs) :
    IsDiff before (patchedFrom before 0 0 cs) cs ∧ (patchedFrom before 0 0 cs).length = after.length ∧
      patchedFrom (patchedFrom before 0 0 cs) 0 0 (cs.map DiffClump.swap) = before := by
  obtain ⟨skip, hd⟩ := h.diffed
  have hl : (patchedFrom before 0 0 cs).length = after.length := by
    have := hd.patched.1; omega
  have hr := hd.retarget (List.drop_zero) hl
  refine ⟨⟨⟨_, hr⟩, h.ctx⟩, hl, ?_⟩
  have hs := hr.swap
  have := hs.patched.2
  rw [List.drop_zero] at this
  exact this.2 (fun g hg => (hs.gaps_skip g hg).symm)

/-- Every item of the patched text stands at the same place in `after`, or was left where a stretch was left out. -/
theorem Diffed.patched_item {skip : CommonSubsequence → Prop} {before after : List T} {i j : Nat} {cs : List (DiffClump T)}
    (h : Diffed skip before after i j cs before.length after.length) (t : Nat) (x : T)
    (hx : (patchedFrom before 0 i cs)[t]? = some x) :
    after[j + t]? = some x ∨ ∃ g, skip g ∧ ∃ u < g.n, j + t = g.a + u ∧ before[g.b + u]? = some x := by
  induction cs generalizing i j t with
  | nil =>
    obtain ⟨n, h1, h2, h3⟩ := h
    simp only [patchedFrom, List.getElem?_drop] at hx
    have := (List.getElem?_eq_some_iff.1 hx).1
    exact .inr ⟨_, h3, t, by show t < n; omega, rfl, hx⟩
  | cons c cs ih =>
    have hb := h.bounds.2.2.2 c (by simp)
    obtain ⟨⟨n, h1, h2, hs⟩, h3, h4, h5⟩ := h
    have e : (c.before.start + 0 : Int).toNat = c.before.start := by omega
    simp only [patchedFrom, e] at hx
    have hn : (cut before i c.before.start).length = n := by
      rw [length_cut _ _ _ (by omega)]; omega
    rw [List.append_assoc] at hx
    rcases Nat.lt_or_ge t n with ht | ht
    · rw [List.getElem?_append_left (by omega), cut_getElem?, if_pos (by omega)] at hx
      exact .inr ⟨_, hs, t, ht, rfl, hx⟩
    · rw [List.getElem?_append_right (by omega), hn] at hx
      rcases Nat.lt_or_ge (t - n) c.after.items.length with hm | hm
      · rw [List.getElem?_append_left hm] at hx
        left
        have h4' := congrArg (fun l => l[t - n]?) h4
        simp only [cut_getElem?] at h4'
        rw [hx, if_pos (by omega)] at h4'
        rw [h4', h2]
        congr 1
        omega
      · rw [List.getElem?_append_right hm] at hx
        have e1 : c.after.start + c.after.items.length + (t - n - c.after.items.length) = j + t := by omega
        have := ih h5 _ hx
        rwa [e1] at this

/-- A pair of items that is kept is equal, or the pairs before and after it are. -/
theorem kept_hit [DecidableEq T] [Item T] [LawfulItem T] {p : Profile} {before after : List T} {changes : List Change}
    (h : changesOf p before after = .ok changes) {j i : Nat} (hk : Kept changes j i) :
    Hit before after j i ∨
      ∃ j' i', j = j' + 1 ∧ i = i' + 1 ∧ Hit before after j' i' ∧ Hit before after (j' + 2) (i' + 2) := by
  obtain ⟨cs, h', hg, d, hd, rfl⟩ := changesOf_spec p before after
  obtain rfl := Outcome.ok_inj (h'.symm.trans h)
  rw [gen_kept, mergeAdjacent_covered] at hk
  obtain ⟨c, hc, t, ht, rfl, rfl⟩ := hk
  obtain ⟨n, hn, -, h1, h2⟩ := hd.spec.2.2 c hc
  rcases Nat.lt_trichotomy t n with h | h | h
  · exact .inl (h1 t h)
  · subst h
    have a1 := h1 (t - 1) (by omega)
    have a2 := (h2 (by omega)).2 0 (by omega)
    refine .inr ⟨c.b + (t - 1), c.a + (t - 1), by omega, by omega, a1, ?_⟩
    rw [show c.b + t + 1 + 0 = c.b + (t - 1) + 2 by omega, show c.a + t + 1 + 0 = c.a + (t - 1) + 2 by omega] at a2
    exact a2
  · have := (h2 (by omega)).2 (t - n - 1) (by omega)
    rw [show c.b + n + 1 + (t - n - 1) = c.b + t by omega, show c.a + n + 1 + (t - n - 1) = c.a + t by omega] at this
    exact .inl this

/-- Every item of the patched text is the one at the same place in `after`, or an item of `before` next to which, on both
sides, the two sequences are equal. -/
theorem patched_item [DecidableEq T] [Item T] [LawfulItem T] {p : Profile} {before after : List T} {changes : List Change}
    (h : changesOf p before after = .ok changes) {cs : List (DiffClump T)}
    (hd : Diffed (Skip changes) before after 0 0 cs before.length after.length) (k : Nat) (x : T)
    (hx : (patchedFrom before 0 0 cs)[k]? = some x) :
    after[k]? = some x ∨ ∃ j k', k = k' + 1 ∧ before[j + 1]? = some x ∧ Hit before after j k' ∧
      Hit before after (j + 2) (k' + 2) := by
  rcases hd.patched_item k x hx with h1 | ⟨g, hg, u, hu, h1, h2⟩
  · left; rwa [Nat.zero_add] at h1
  · rw [Nat.zero_add] at h1
    subst h1
    have hk : Kept changes (g.b + u) (g.a + u) := by
      rcases hg with hg | ⟨c, hc, s1, s2, s3⟩
      · omega
      · exact ⟨c, hc, g.b + u - c.b, by omega, by omega, by omega⟩
    rcases kept_hit h hk with ⟨y, h3, h4⟩ | ⟨j', i', h3, h4, h5, h6⟩
    · left
      rw [h4, ← h3, h2]
    · exact .inr ⟨j', i', h4, by rw [← h3, h2], h5, h6⟩

end PwDiff
