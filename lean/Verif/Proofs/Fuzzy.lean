import Verif.Proofs.Patched

/-! # Patching files other than the source -/

namespace PwDiff

variable {T : Type}

/-! ## Checking positions on concrete inputs -/

def standsB [DecidableEq T] (ls l : List T) (pos : Nat) : Bool :=
  decide (pos + ls.length ≤ l.length) && decide (cut l pos (pos + ls.length) = ls)

theorem standsB_iff [DecidableEq T] (ls l : List T) (pos : Nat) : standsB ls l pos = true ↔ StandsAt ls l pos := by
  simp [standsB, standsAt_nat]

/-- A check of `NowhereFits` on concrete inputs. -/
def nowhereB [DecidableEq T] (l : List T) (ctx : Nat × Nat) (side : Snippet T) : Bool :=
  (List.range (l.length + 1)).all fun pos => !standsB side.items l pos &&
    (List.range (max ctx.1 ctx.2)).all fun k => k == 0 || !standsB (trim (redn ctx k) side.items) l pos

theorem nowhere_of_check [DecidableEq T] {l : List T} {ctx : Nat × Nat} {side : Snippet T} (h : nowhereB l ctx side = true) :
    NowhereFits l ctx side := by
  have gen : ∀ (ls : List T), (∀ pos, pos < l.length + 1 → ¬ StandsAt ls l (pos : Nat)) → ∀ q : Int, ¬ StandsAt ls l q := by
    intro ls hl q hq
    have hb := (standsAt_iff _ _ _).1 hq
    refine hl q.toNat (by omega) ?_
    rw [show ((q.toNat : Nat) : Int) = q by omega]; exact hq
  simp only [nowhereB, List.all_eq_true, List.mem_range, Bool.and_eq_true, Bool.not_eq_true', Bool.or_eq_true, beq_iff_eq] at h
  intro q
  refine ⟨gen _ ?_ q, ?_⟩
  · intro pos hpos hs
    have := (h pos hpos).1
    rw [← standsB_iff, this] at hs
    simp at hs
  · intro k k1 k2
    refine gen _ ?_ _
    intro pos hpos hs
    rcases (h pos hpos).2 k k2 with h0 | h0
    · omega
    · rw [← standsB_iff, h0] at hs
      simp at hs

/-- A check, on concrete inputs, that lines are found trimmed only where they stand untrimmed. -/
def onlyCleanB [DecidableEq T] (l : List T) (ctx : Nat × Nat) (old : List T) : Bool :=
  (List.range (l.length + 1)).all fun pos => (List.range (max ctx.1 ctx.2)).all fun k =>
    k == 0 || !standsB (trim (redn ctx k) old) l pos ||
      (decide ((redn ctx k).1 ≤ pos) && standsB old l (pos - (redn ctx k).1))

theorem onlyClean_of_check [DecidableEq T] {l : List T} {ctx : Nat × Nat} {old : List T} (h : onlyCleanB l ctx old = true) :
    ∀ pos w, Fits old ctx l pos (some w) → w = .cleanly := by
  intro q w hw
  cases w with
  | cleanly => rfl
  | withReductions r =>
    exfalso
    obtain ⟨h0, k, k1, k2, rfl, k3, -⟩ := hw
    simp only [onlyCleanB, List.all_eq_true, List.mem_range, Bool.and_eq_true, Bool.not_eq_true', Bool.or_eq_true,
      beq_iff_eq, decide_eq_true_eq] at h
    have hb := (standsAt_iff _ _ _).1 k3
    have e : (((q + ((redn ctx k).1 : Int)).toNat : Nat) : Int) = q + (redn ctx k).1 := by omega
    rcases h (q + (redn ctx k).1).toNat (by omega) k k2 with (hk | hk) | ⟨hk, hk'⟩
    · omega
    · rw [← e, ← standsB_iff, hk] at k3
      simp at k3
    · rw [standsB_iff] at hk'
      apply h0
      rw [show (((q + ((redn ctx k).1 : Int)).toNat - (redn ctx k).1 : Nat) : Int) = q by omega] at hk'
      exact hk'

/-! ## Room -/

/-- For a generated patch the search limits at offset 0 can only underflow for the last clump. -/
theorem roomy_of_last {skip : CommonSubsequence → Prop} {before after l : List T} {i j : Nat} {cs : List (DiffClump T)}
    (h : Diffed skip before after i j cs before.length after.length)
    (hlast : ∀ c ∈ cs.getLast?, coreLen c.contextLengths c.before ≤ l.length) : Roomy l DiffClump.before cs := by
  induction cs generalizing i j with
  | nil => trivial
  | cons c cs ih =>
    obtain ⟨-, -, -, h5⟩ := h
    cases cs with
    | nil =>
      refine ⟨?_, trivial⟩
      have := hlast c (by simp)
      simp only [Underflow, searchRoom, List.head?_nil, Option.map_none]
      omega
    | cons c' cs =>
      refine ⟨?_, ih h5 (by simpa using hlast)⟩
      have := (h5.bounds.2.2.2 c' (by simp)).1
      simp only [Underflow, searchRoom, List.head?_cons, Option.map_some, coreLen]
      omega

/-! ## Already applied -/

theorem patching_already [Item T] (p : Profile) {skip : CommonSubsequence → Prop} {before after : List T} {i j k : Nat}
    {cs : List (DiffClump T)} {st : Statistics} (h : Diffed skip before after i j cs before.length after.length)
    (hk : k ≤ j) (hno : ∀ c ∈ cs, NowhereFits after c.contextLengths c.before)
    (hroom : p = .debug → Roomy after DiffClump.before cs) :
    Patching p after k 0 st cs (bytesOf (after.drop k)) (.ok { st with alreadyApplied := st.alreadyApplied + cs.length }) := by
  induction cs generalizing i j k st with
  | nil =>
    obtain ⟨n, h1, h2, -⟩ := h
    have := Patching.finish (p := p) (l := after) (k := k) (offset := 0) (st := st) (by omega)
    rw [cut_length_eq] at this
    exact this
  | cons c cs ih =>
    have hb := h.bounds.2.2.2 c (by simp)
    have hst := (h.stands c (by simp)).2
    obtain ⟨-, -, -, h5⟩ := h
    have hn := hno c (by simp)
    have hd : Decides p after k 0 c cs.head? (.already 0 .cleanly) := by
      refine ⟨hn _, ?_, ?_, .inl ⟨rfl, ?_⟩⟩
      · rintro ⟨rfl, hu⟩
        exact (hroom rfl).1 hu
      · intro d _
        exact hn _
      · show StandsAt _ _ _
        rw [Int.add_zero]; exact hst
    have e : placeOf c.after (0 + 0) .cleanly + coveredBy c.after .cleanly = c.after.start + c.after.items.length := by
      simp [placeOf, coveredBy, WillApply.redn]
    have i1 := ih (k := c.after.start + c.after.items.length)
      (st := { st with alreadyApplied := st.alreadyApplied + 1 }) h5 (by omega)
      (fun c hc => hno c (by simp [hc])) (fun hp => (hroom hp).2)
    have := Patching.already (st := st) hd (by
      rw [e, show max k (c.after.start + c.after.items.length) = c.after.start + c.after.items.length by omega]
      exact i1)
    rw [e, ← bytesOf_append, ← cut_length_eq, cut_append _ (by omega) (by omega), cut_length_eq] at this
    rw [List.length_cons, show st.alreadyApplied + (cs.length + 1) = st.alreadyApplied + 1 + cs.length by omega]
    exact this

theorem Patching.moreApplied [Item T] {p : Profile} {l : List T} {k : Nat} {o : Int} {st : Statistics} {cs : List (DiffClump T)} {out : List UInt8}
    {r : Outcome Statistics} (h : Patching p l k o st cs out r) :
    ∀ st', r = .ok st' → st.clean ≤ st'.clean ∧ st.fuzzy ≤ st'.fuzzy := by
  induction h with
  | finish _ => rintro st' ⟨⟩; exact ⟨Nat.le_refl _, Nat.le_refl _⟩
  | overrun _ => rintro st' ⟨⟩
  | crash _ => rintro st' ⟨⟩
  | applyPanic _ _ => rintro st' ⟨⟩
  | apply _ _ _ ih | already _ _ ih | failed _ _ ih =>
    intro st' e
    have := ih st' e
    simp only [Decision.count] at this
    (try split at this) <;> (try simp only at this) <;> omega

theorem unfound_already [Item T] (p : Profile) {skip : CommonSubsequence → Prop} {before after : List T} {i j k : Nat}
    {cs : List (DiffClump T)} {st : Statistics} (h : Diffed skip before after i j cs before.length after.length)
    (hk : k ≤ j) (hno : Unfound p after k cs) :
    Patching p after k 0 st cs (bytesOf (after.drop k)) (.ok { st with alreadyApplied := st.alreadyApplied + cs.length }) := by
  induction cs generalizing i j k st with
  | nil =>
    obtain ⟨n, h1, h2, -⟩ := h
    have := Patching.finish (p := p) (l := after) (k := k) (offset := 0) (st := st) (by omega)
    rw [cut_length_eq] at this
    exact this
  | cons c cs ih =>
    have hb := h.bounds.2.2.2 c (by simp)
    have hst := (h.stands c (by simp)).2
    obtain ⟨-, -, -, h5⟩ := h
    obtain ⟨n1, n2, n3, n4⟩ := hno
    have hd : Decides p after k 0 c cs.head? (.already 0 .cleanly) := by
      refine ⟨n1, n2, n3, .inl ⟨rfl, ?_⟩⟩
      show StandsAt _ _ _
      rw [Int.add_zero]; exact hst
    have e : placeOf c.after (0 + 0) .cleanly + coveredBy c.after .cleanly = c.after.start + c.after.items.length := by
      simp [placeOf, coveredBy, WillApply.redn]
    have i1 := ih (k := c.after.start + c.after.items.length)
      (st := { st with alreadyApplied := st.alreadyApplied + 1 }) h5 (by omega) n4
    have := Patching.already (st := st) hd (by
      rw [e, show max k (c.after.start + c.after.items.length) = c.after.start + c.after.items.length by omega]
      exact i1)
    rw [e, ← bytesOf_append, ← cut_length_eq, cut_append _ (by omega) (by omega), cut_length_eq] at this
    rw [List.length_cons, show st.alreadyApplied + (cs.length + 1) = st.alreadyApplied + 1 + cs.length by omega]
    exact this

theorem unfound_of [Item T] {p : Profile} {skip : CommonSubsequence → Prop} {before after : List T} {i j k : Nat}
    {cs : List (DiffClump T)} {st st' : Statistics} {out : List UInt8}
    (h : Diffed skip before after i j cs before.length after.length)
    (hk : k ≤ j) (hp : Patching p after k 0 st cs out (.ok st')) (h1 : st'.clean = st.clean) (h2 : st'.fuzzy = st.fuzzy) :
    Unfound p after k cs := by
  induction cs generalizing i j k st out with
  | nil => trivial
  | cons c cs ih =>
    have hb := h.bounds.2.2.2 c (by simp)
    have hst := (h.stands c (by simp)).2
    obtain ⟨-, -, -, h5⟩ := h
    have here : FitsHere after 0 c.contextLengths c.after (some .cleanly) := by
      show StandsAt _ _ _
      rw [Int.add_zero]; exact hst
    cases hp with
    | apply g1 g2 g3 =>
      have := g3.moreApplied _ rfl
      simp only [Decision.count] at this
      split at this <;> simp only at this <;> omega
    | already g1 g3 =>
      have u := decides_unique g1 (y := .already 0 .cleanly) ⟨g1.1, g1.2.1, g1.2.2.1, .inl ⟨rfl, here⟩⟩
      cases u
      have e : placeOf c.after (0 + 0) .cleanly + coveredBy c.after .cleanly = c.after.start + c.after.items.length := by
        simp [placeOf, coveredBy, WillApply.redn]
      rw [e, show max k (c.after.start + c.after.items.length) = c.after.start + c.after.items.length by omega] at g3
      exact ⟨g1.1, g1.2.1, g1.2.2.1, ih h5 (Nat.le_refl _) g3 h1 h2⟩
    | failed g1 g3 =>
      have u := decides_unique g1 (y := .already 0 .cleanly) ⟨g1.1, g1.2.1, g1.2.2.1, .inl ⟨rfl, here⟩⟩
      cases u

/-! ## Nothing fits -/

theorem patching_failed [Item T] (p : Profile) {l : List T} {k : Nat} {cs : List (DiffClump T)} {st : Statistics}
    (hk : k ≤ l.length)
    (hold : ∀ c ∈ cs, NowhereFits l c.contextLengths c.before) (hnew : ∀ c ∈ cs, NowhereFits l c.contextLengths c.after)
    (hroom : p = .debug → Roomy l DiffClump.before cs ∧ Roomy l DiffClump.after cs) :
    Patching p l k 0 st cs (cs.flatMap (fun c => conflict c.before.items c.after.items) ++ bytesOf (l.drop k))
      (.ok { st with failed := st.failed + cs.length }) := by
  induction cs generalizing st with
  | nil =>
    have := Patching.finish (p := p) (l := l) (k := k) (offset := 0) (st := st) hk
    rw [cut_length_eq] at this
    exact this
  | cons c cs ih =>
    have ho := hold c (by simp)
    have hn := hnew c (by simp)
    have hd : Decides p l k 0 c cs.head? .failed := by
      refine ⟨ho _, ?_, fun d _ => ho _, hn _, ?_, fun d _ => hn _⟩
      · rintro ⟨rfl, hu⟩
        exact (hroom rfl).1.1 hu
      · rintro ⟨rfl, hu⟩
        exact (hroom rfl).2.1 hu
    have i1 := ih (st := { st with failed := st.failed + 1 }) (fun c hc => hold c (by simp [hc]))
      (fun c hc => hnew c (by simp [hc])) (fun hp => ⟨(hroom hp).1.2, (hroom hp).2.2⟩)
    have := Patching.failed (st := st) hd i1
    rw [List.flatMap_cons, List.append_assoc, List.length_cons,
      show st.failed + (cs.length + 1) = st.failed + 1 + cs.length by omega]
    exact this

/-! ## Displaced files -/

theorem patching_displaced [Item T] (p : Profile) {l : List T} {d : Int} {c : DiffClump T} {cs : List (DiffClump T)}
    (hd : d ≠ 0) (hs : StandInOrder l d 0 (c :: cs))
    (hlim : 0 < d → c.before.start + d < searchLimit l c.contextLengths c.before (cs.head?.map DiffClump.before) 0)
    (hnear : ∀ d' : Int, d'.natAbs < d.natAbs → Fits c.before.items c.contextLengths l (c.before.start + d') none)
    (htie : 0 < d → Fits c.before.items c.contextLengths l (c.before.start - d) none)
    (hroom : ¬ (p = .debug ∧ Underflow l c.contextLengths c.before (cs.head?.map DiffClump.before) 0)) :
    Patching p l 0 0 {} (c :: cs) (bytesOf (patchedFrom l d 0 (c :: cs))) (.ok { fuzzy := 1, clean := cs.length }) := by
  obtain ⟨h1, h2, h3⟩ := hs
  have hdec : Decides p l 0 0 c cs.head? (.apply d .cleanly) := by
    refine .inr ⟨?_, hroom, ?_, ?_, ?_, ?_⟩
    · have := hnear 0 (by omega)
      exact this
    · simp only [Int.add_zero, InBounds]
      by_cases h : 0 < d
      · right; exact ⟨h, hlim h⟩
      · left; omega
    · show StandsAt _ _ _
      rw [Int.add_zero]; exact h2
    · intro d' _ hlt
      rw [Int.add_zero]; exact hnear d' hlt
    · intro hp _
      rw [Int.add_zero, ← Int.sub_eq_add_neg]; exact htie hp
  have hplace : placeOf c.before (0 + d) .cleanly = (c.before.start + d).toNat := by
    simp [placeOf, WillApply.redn]
  have hcov : coveredBy c.before .cleanly = c.before.items.length := rfl
  have hcount : Decision.count {} (.apply d .cleanly) = { fuzzy := 1 } := by simp [Decision.count, hd]
  have i := patching_clean p l d _ { fuzzy := 1 } cs h3
  have := Patching.apply (st := {}) (ls := c.after.items) hdec rfl (by
    rw [hplace, hcov, Nat.zero_max, hcount, Int.zero_add]
    exact i)
  rw [hplace, ← bytesOf_append, ← bytesOf_append] at this
  simpa [patchedFrom] using this

/-- The old lines displaced by a piece of text put in front. -/
theorem StandInOrder.displace {before : List T} {k : Nat} {cs : List (DiffClump T)} (h : StandInOrder before 0 k cs)
    (pre post : List T) :
    StandInOrder (pre ++ before ++ post) pre.length (k + pre.length) cs ∧
      patchedFrom (pre ++ before ++ post) pre.length (k + pre.length) cs = patchedFrom before 0 k cs ++ post := by
  induction cs generalizing k with
  | nil =>
    have h' : k ≤ before.length := h
    refine ⟨by show _ ≤ _; simp; omega, ?_⟩
    simp only [patchedFrom]
    rw [List.append_assoc, List.drop_append, List.drop_append, List.drop_of_length_le (by omega), List.nil_append]
    rw [show k + pre.length - pre.length = k by omega, show k - before.length = 0 by omega, List.drop_zero]
  | cons c cs ih =>
    obtain ⟨h1, h2, h3⟩ := h
    rw [Int.add_zero] at h1 h2 h3
    rw [Int.toNat_natCast] at h3
    obtain ⟨i1, i2⟩ := ih h3
    have e : (c.before.start + (pre.length : Int)).toNat = c.before.start + pre.length := by omega
    have e0 : (c.before.start + (0 : Int)).toNat = c.before.start := by omega
    have hb := (standsAt_iff _ _ _).1 h2
    refine ⟨⟨by omega, ?_, ?_⟩, ?_⟩
    · obtain ⟨a, b, rfl, hl⟩ := h2
      exact ⟨pre ++ a, b ++ post, by simp, by simp; omega⟩
    · rw [e, show c.before.start + pre.length + c.before.items.length = c.before.start + c.before.items.length + pre.length by omega]
      exact i1
    · simp only [patchedFrom]
      rw [e, e0, show c.before.start + pre.length + c.before.items.length = c.before.start + c.before.items.length + pre.length by omega,
        i2]
      simp only [List.append_assoc]
      congr 1
      apply List.ext_getElem?
      intro t
      simp only [cut_getElem?]
      rw [show c.before.start + pre.length - (k + pre.length) = c.before.start - k by omega]
      split
      · rw [List.getElem?_append_right (by omega), List.getElem?_append_left (by omega)]
        congr 1; omega
      · rfl

/-! ## Panics -/

/-- The only results are success and a panic. -/
theorem Patching.ok_or_panic [Item T] {p : Profile} {l : List T} {k : Nat} {o : Int} {st : Statistics} {cs : List (DiffClump T)}
    {out : List UInt8} {r : Outcome Statistics} (h : Patching p l k o st cs out r) : (∃ s, r = .ok s) ∨ r = .panic := by
  induction h with
  | finish _ => exact .inl ⟨_, rfl⟩
  | overrun _ => exact .inr rfl
  | crash _ => exact .inr rfl
  | apply _ _ _ ih => exact ih
  | applyPanic _ _ => exact .inr rfl
  | already _ _ ih => exact ih
  | failed _ _ ih => exact ih

/-- No panic: when old lines are only ever found in a form that can be written, new lines are never found, and, in a
debug build, the limits of the searches do not underflow. -/
theorem patching_no_panic [Item T] {p : Profile} {skip : CommonSubsequence → Prop} {before after l : List T} {i j k : Nat}
    {o : Int} {st : Statistics} {cs : List (DiffClump T)}
    {out : List UInt8} {r : Outcome Statistics} (h : Patching p l k o st cs out r)
    (hd : Diffed skip before after i j cs before.length after.length)
    (hctx : ∀ c ∈ cs, c.contextLengths.1 + c.contextLengths.2 ≤ c.before.items.length)
    (hk : k ≤ l.length) (hko : (k : Int) ≤ i + o)
    (hold : ∀ c ∈ cs, ∀ pos w, Fits c.before.items c.contextLengths l pos (some w) → ∃ ls, writtenFor c.after w = some ls)
    (hnew : ∀ c ∈ cs, NowhereFits l c.contextLengths c.after)
    (hlast : p = .debug → ∀ c ∈ cs.getLast?, coreLen c.contextLengths c.before ≤ l.length ∧
      coreLen c.contextLengths c.after ≤ l.length)
    (hmid : p = .debug → ∀ c ∈ cs, c.before.start ≤ c.after.start) :
    ∃ s, r = .ok s := by
  induction h generalizing i j with
  | finish _ => exact ⟨_, rfl⟩
  | overrun h => omega
  | @crash k o st c cs hc =>
    exfalso
    have hi : i ≤ c.before.start := by
      obtain ⟨⟨n, h1, -⟩, -⟩ := hd
      omega
    obtain ⟨-, -, -, h5⟩ := hd
    obtain ⟨rfl, -, hu⟩ := hc
    have hm := hmid rfl c (by simp)
    cases cs with
    | nil =>
      have := hlast rfl c (by simp)
      simp only [Underflow, searchRoom, List.head?_nil, Option.map_none] at hu
      rcases hu with hu | ⟨-, -, -, hu⟩ <;> omega
    | cons c' cs =>
      have := h5.bounds.2.2.2 c' (by simp)
      simp only [Underflow, searchRoom, List.head?_cons, Option.map_some, coreLen] at hu
      rcases hu with hu | ⟨-, -, -, hu⟩ <;> omega
  | @apply k o st c cs d w ls out r hdec hw hp ih =>
    have hi : i ≤ c.before.start := by
      obtain ⟨⟨n, h1, -⟩, -⟩ := hd
      omega
    obtain ⟨-, -, -, h5⟩ := hd
    have hf := hdec.apply_fits
    obtain ⟨b1, b2, b3, b4⟩ := fits_some_bounds (hctx c (by simp)) hf
    have hcx := hctx c (by simp)
    have hd0 : (k : Int) ≤ c.before.start + o + d + w.redn.1 := by
      rcases hdec with ⟨rfl, -⟩ | ⟨-, -, hb, -⟩
      · omega
      · rcases hb with hb | hb <;> omega
    refine ih h5 (fun c hc => hctx c (by simp [hc])) ?_ ?_ (fun c hc => hold c (by simp [hc]))
      (fun c hc => hnew c (by simp [hc])) ?_ (fun hp c hc => hmid hp c (by simp [hc]))
    · simp only [placeOf, coveredBy]; omega
    · simp only [placeOf, coveredBy]; omega
    · intro hp c' hc'
      apply hlast hp c'
      cases cs with
      | nil => simp at hc'
      | cons c'' cs => simpa using hc'
  | @applyPanic k o st c cs d w hdec hw =>
    obtain ⟨ls, hls⟩ := hold c (by simp) _ _ hdec.apply_fits
    rw [hw] at hls
    simp at hls
  | @already k o st c cs d w out r hdec hp ih =>
    exfalso
    have := fits_unique (hnew c (by simp) _) hdec.already_fits
    simp at this
  | @failed k o st c cs out r hdec hp ih =>
    have hi : i ≤ c.before.start := by
      obtain ⟨⟨n, h1, -⟩, -⟩ := hd
      omega
    obtain ⟨-, -, -, h5⟩ := hd
    refine ih h5 (fun c hc => hctx c (by simp [hc])) hk (by omega) (fun c hc => hold c (by simp [hc]))
      (fun c hc => hnew c (by simp [hc])) ?_ (fun hp c hc => hmid hp c (by simp [hc]))
    intro hp c' hc'
    apply hlast hp c'
    cases cs with
    | nil => simp at hc'
    | cons c'' cs => simpa using hc'

end PwDiff
