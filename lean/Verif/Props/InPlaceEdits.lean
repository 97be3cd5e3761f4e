import Verif.Props.InPlaceMade

/-! # C159: byte patches that replace bytes in place, and other changes of the file -/

namespace PwDiff

/-- What such a patch does at the place of one of its clumps depends on nothing but the bytes there. -/
theorem C159_local (p q : Profile) (cs : List (DiffClump UInt8)) (hp : ∀ c ∈ cs, c.InPlace) (ho : InRow cs) (l l' : List UInt8)
    (hlen : l'.length = l.length) (hsz : l.length + weight cs < wordSize) :
    ∃ out out', (byteApplyInto p cs l false).run = (.ok (), out) ∧ (byteApplyInto q cs l' false).run = (.ok (), out') ∧
      ∀ c ∈ cs, (∀ i, c.Covers i → l'[i]? = l[i]?) → ∀ i, c.Covers i → out'[i]? = out[i]? := by
  obtain ⟨out, r, h⟩ := C154_exact p cs hp ho l hsz
  obtain ⟨out', r', h'⟩ := C154_exact q cs hp ho l' (by rw [hlen]; exact hsz)
  refine ⟨out, out', r, r', fun c hc hs i hi => ?_⟩
  have hiff := foundIn_congr (s := c.before) hlen fun i a b => hs i ⟨a, b⟩
  by_cases hf : FoundIn l c.before
  · rw [(h.2 i).1 c hc hi hf, (h'.2 i).1 c hc hi (hiff.2 hf)]
  · rw [(h.at hp ho hc).2 hf i hi, (h'.at hp ho hc).2 (fun x => hf (hiff.1 x)) i hi, hs i hi]

/-- A byte that is in no clump is changed: it does not matter whether this is done before the patch is applied or after that. -/
theorem C159_edit (p : Profile) (cs : List (DiffClump UInt8)) (hp : ∀ c ∈ cs, c.InPlace) (ho : InRow cs) (l : List UInt8)
    (hsz : l.length + weight cs < wordSize) (k : Nat) (x : UInt8) (hk : ∀ c ∈ cs, ¬ c.Covers k) :
    ∃ out, (byteApplyInto p cs l false).run = (.ok (), out) ∧ (byteApplyInto p cs (l.set k x) false).run = (.ok (), out.set k x) := by
  obtain ⟨out, out', r, r', h⟩ := C159_local p p cs hp ho l (l.set k x) (by simp) hsz
  obtain ⟨o, s, g⟩ := C154_exact p cs hp ho l hsz
  obtain ⟨o', s', g'⟩ := C154_exact p cs hp ho (l.set k x) (by simpa using hsz)
  obtain rfl : o = out := congrArg Prod.snd (s.symm.trans r)
  obtain rfl : o' = out' := congrArg Prod.snd (s'.symm.trans r')
  refine ⟨o, r, ?_⟩
  suffices o' = o.set k x by rw [← this]; exact r'
  refine List.ext_getElem? fun i => ?_
  by_cases hc : ∃ c ∈ cs, c.Covers i
  · obtain ⟨c, hc, hi⟩ := hc
    have hne : k ≠ i := fun e => hk c hc (e ▸ hi)
    rw [List.getElem?_set_ne hne]
    refine h c hc (fun j hj => List.getElem?_set_ne ?_) i hi
    exact fun e => hk c hc (e ▸ hj)
  · have hno : ∀ c ∈ cs, ¬ c.Covers i := fun c hm hi => hc ⟨c, hm, hi⟩
    rw [(g'.2 i).2 fun c hm _ => hno c hm]
    by_cases e : k = i
    · subst e
      simp only [List.getElem?_set_self', (g.2 k).2 fun c hm _ => hno c hm]
    · rw [List.getElem?_set_ne e, List.getElem?_set_ne e, (g.2 i).2 fun c hm _ => hno c hm]

/-- Any number of such changes, one after the other. -/
theorem C159_edits (p : Profile) (cs : List (DiffClump UInt8)) (hp : ∀ c ∈ cs, c.InPlace) (ho : InRow cs) (l : List UInt8)
    (hsz : l.length + weight cs < wordSize) (es : List (Nat × UInt8)) (he : ∀ e ∈ es, ∀ c ∈ cs, ¬ c.Covers e.1) :
    ∃ out, (byteApplyInto p cs l false).run = (.ok (), out) ∧
      (byteApplyInto p cs (es.foldl (fun l e => l.set e.1 e.2) l) false).run = (.ok (), es.foldl (fun l e => l.set e.1 e.2) out) := by
  induction es generalizing l with
  | nil =>
    obtain ⟨out, r, -⟩ := C154_exact p cs hp ho l hsz
    exact ⟨out, r, r⟩
  | cons e es ih =>
    obtain ⟨out, r1, r2⟩ := C159_edit p cs hp ho l hsz e.1 e.2 (he e List.mem_cons_self)
    obtain ⟨out', r3, r4⟩ := ih (l.set e.1 e.2) (by simpa using hsz) fun e' h => he e' (List.mem_cons_of_mem _ h)
    obtain rfl : out.set e.1 e.2 = out' := congrArg Prod.snd (r2.symm.trans r3)
    exact ⟨out, r1, r4⟩

/-- The two bytes between the clumps, and one behind them. -/
example (p : Profile) (x y z : UInt8) (l : List UInt8) (hl : l.length = 10) :=
  C159_edits p inPlaceClumps (by decide) inPlaceClumps_row l (by rw [hl]; decide +kernel) [(3, x), (9, y), (4, z)] (by
    have key : ∀ k ∈ [3, 9, 4], ∀ c ∈ inPlaceClumps, ¬ (c.before.start ≤ k ∧ k < c.before.start + c.before.items.length) := by decide
    intro e he
    refine key e.1 ?_
    simp only [List.mem_cons, List.not_mem_nil, or_false] at he
    rcases he with rfl | rfl | rfl <;> simp)

/-- The first three bytes are not the same, the others are. -/
example (p q : Profile) (x y z : UInt8) :
    ∃ out out', (byteApplyInto p inPlaceClumps [1, 2, 3, 4, 5, 6, 7, 7, 8] false).run = (.ok (), out) ∧
      (byteApplyInto q inPlaceClumps [x, y, z, 4, 5, 6, 7, 7, 8] false).run = (.ok (), out') ∧ ∀ i, 5 ≤ i → i < 9 → out'[i]? = out[i]? := by
  obtain ⟨out, out', r1, r2, h⟩ := C159_local p q inPlaceClumps (by decide) inPlaceClumps_row [1, 2, 3, 4, 5, 6, 7, 7, 8]
    [x, y, z, 4, 5, 6, 7, 7, 8] rfl (by decide +kernel)
  refine ⟨out, out', r1, r2, fun i h1 h2 => h ⟨(1, 1), ⟨5, [6, 7, 7, 8]⟩, ⟨5, [6, 0, 0, 8]⟩⟩ (by simp [inPlaceClumps]) (fun j hj => ?_) i ⟨h1, h2⟩⟩
  obtain ⟨n, rfl⟩ : ∃ n, j = n + 3 := ⟨j - 3, by have := hj.1; simp only at this; omega⟩
  rfl

/-- What one may expect: the same of all generated byte patches. -/
def C159_statement : Prop :=
  ∀ (p : Profile) (before after : List UInt8) (context : Nat) (cs : List (DiffClump UInt8)) (k : Nat) (x : UInt8), context ≤ 255 →
    diffClumps p before after context = .ok cs → (∀ c ∈ cs, ¬ c.Covers k) →
    ∃ out, (byteApplyInto p cs before false).run = (.ok (), out) ∧
      (byteApplyInto p cs (before.set k x) false).run = (.ok (), out.set k x)

/-- That is not so: with a patch that adds a byte the others are at another place afterwards. -/
theorem C159_refuted : ¬ C159_statement := by
  intro h
  obtain ⟨out, r1, r2⟩ := h .debug [1, 2, 3, 4] [1, 9, 2, 3, 4] 1 [⟨(1, 1), ⟨0, [1, 2]⟩, ⟨0, [1, 9, 2]⟩⟩] 3 5 (by decide) (by decide +kernel) (by
    intro c hc hi
    obtain rfl := List.mem_singleton.1 hc
    exact absurd hi.2 (by decide))
  have e1 : (byteApplyInto .debug [⟨(1, 1), ⟨0, [1, 2]⟩, ⟨0, [1, 9, 2]⟩⟩] [1, 2, 3, 4] false).run = (.ok (), [1, 9, 2, 3, 4]) := by decide +kernel
  obtain rfl : [1, 9, 2, 3, 4] = out := congrArg Prod.snd (e1.symm.trans r1)
  revert r2
  decide +kernel

end PwDiff
