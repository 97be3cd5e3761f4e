import Verif.Props.Bytes
import Verif.Props.Either

/-! # C154: byte patches that replace bytes in place -/

namespace PwDiff

/-- The clump replaces bytes by as many bytes at the same place. -/
def DiffClump.InPlace (c : DiffClump UInt8) : Prop := c.after.start = c.before.start ∧ c.after.items.length = c.before.items.length

/-- The position `i` is one of those of the clump. -/
def DiffClump.Covers (c : DiffClump UInt8) (i : Nat) : Prop := c.before.start ≤ i ∧ i < c.before.start + c.before.items.length

/-- The clumps follow each other in the file. -/
def InRow (cs : List (DiffClump UInt8)) : Prop := cs.Pairwise fun c d => c.before.start + c.before.items.length ≤ d.before.start

theorem bytePatching_inPlace {l : List UInt8} {k : Nat} {cs : List (DiffClump UInt8)} {out : List UInt8} {r : Outcome Unit}
    (h : BytePatching l k cs out r) (hk : k ≤ l.length) (hp : ∀ c ∈ cs, c.InPlace) (ho : InRow cs) (hf : ∀ c ∈ cs, k ≤ c.before.start) :
    r = .ok () ∧ out.length = l.length - k ∧ ∀ i, k ≤ i →
      (∀ c ∈ cs, c.Covers i → FoundIn l c.before → out[i - k]? = c.after.items[i - c.before.start]?) ∧
      ((∀ c ∈ cs, FoundIn l c.before → ¬ c.Covers i) → out[i - k]? = l[i]?) := by
  induction h with
  | finish h =>
    refine ⟨rfl, by simp, fun i hi => ⟨by simp, fun _ => ?_⟩⟩
    rw [List.getElem?_drop]
    congr 1
    omega
  | overrun h => omega
  | @apply k c cs out r h1 h2 ih =>
    obtain ⟨ho1, ho2⟩ := List.pairwise_cons.1 ho
    have hc := hf c List.mem_cons_self
    have hle := h1.le
    obtain ⟨-, p2⟩ := hp c List.mem_cons_self
    rw [Nat.max_eq_right hc] at ih
    obtain ⟨r1, r2, r3⟩ := ih hle (fun d hd => hp d (List.mem_cons_of_mem _ hd)) ho2 ho1
    have lc := length_cut l k c.before.start (by omega)
    refine ⟨r1, by simp only [List.length_append, r2, lc]; omega, fun i hi => ?_⟩
    by_cases hi1 : i < c.before.start
    · have e : (cut l k c.before.start ++ c.after.items ++ out)[i - k]? = l[i]? := by
        rw [List.append_assoc, List.getElem?_append_left (by omega), cut_getElem?, if_pos (by omega)]
        congr 1
        omega
      refine ⟨fun d hd hcov _ => ?_, fun _ => e⟩
      obtain ⟨c1, c2⟩ := hcov
      rcases List.mem_cons.1 hd with rfl | hd
      · omega
      · have := ho1 d hd
        omega
    · by_cases hi2 : i < c.before.start + c.before.items.length
      · have e : (cut l k c.before.start ++ c.after.items ++ out)[i - k]? = c.after.items[i - c.before.start]? := by
          rw [List.append_assoc, List.getElem?_append_right (by omega), lc, List.getElem?_append_left (by omega)]
          congr 1
          omega
        refine ⟨fun d hd hcov _ => ?_, fun hno => absurd ⟨by omega, hi2⟩ (hno c List.mem_cons_self h1)⟩
        obtain ⟨c1, c2⟩ := hcov
        rcases List.mem_cons.1 hd with rfl | hd
        · exact e
        · have := ho1 d hd
          omega
      · have e : (cut l k c.before.start ++ c.after.items ++ out)[i - k]? = out[i - (c.before.start + c.before.items.length)]? := by
          rw [List.append_assoc, List.getElem?_append_right (by omega), lc, List.getElem?_append_right (by omega)]
          congr 1
          omega
        obtain ⟨g1, g2⟩ := r3 i (by omega)
        rw [e]
        refine ⟨fun d hd hcov hfd => ?_, fun hno => g2 fun d hd => hno d (List.mem_cons_of_mem _ hd)⟩
        rcases List.mem_cons.1 hd with rfl | hd
        · exact absurd hcov.2 hi2
        · exact g1 d hd hcov hfd
  | @already k c cs out r h0 h1 h2 ih =>
    obtain ⟨ho1, ho2⟩ := List.pairwise_cons.1 ho
    have hc := hf c List.mem_cons_self
    have hle := h1.le
    obtain ⟨p1, p2⟩ := hp c List.mem_cons_self
    rw [p1, p2] at hle h2 ih ⊢
    rw [Nat.max_eq_right (by omega)] at ih
    obtain ⟨r1, r2, r3⟩ := ih hle (fun d hd => hp d (List.mem_cons_of_mem _ hd)) ho2 ho1
    have lc := length_cut l k (c.before.start + c.before.items.length) hle
    refine ⟨r1, by simp only [List.length_append, r2, lc]; omega, fun i hi => ?_⟩
    by_cases hi2 : i < c.before.start + c.before.items.length
    · have e : (cut l k (c.before.start + c.before.items.length) ++ out)[i - k]? = l[i]? := by
        rw [List.getElem?_append_left (by omega), cut_getElem?, if_pos (by omega)]
        congr 1
        omega
      refine ⟨fun d hd hcov hfd => ?_, fun _ => e⟩
      rcases List.mem_cons.1 hd with rfl | hd
      · exact absurd hfd h0
      · have := ho1 d hd
        obtain ⟨c1, c2⟩ := hcov
        omega
    · have e : (cut l k (c.before.start + c.before.items.length) ++ out)[i - k]? = out[i - (c.before.start + c.before.items.length)]? := by
        rw [List.getElem?_append_right (by omega), lc]
        congr 1
        omega
      obtain ⟨g1, g2⟩ := r3 i (by omega)
      rw [e]
      refine ⟨fun d hd hcov hfd => ?_, fun hno => g2 fun d hd => hno d (List.mem_cons_of_mem _ hd)⟩
      rcases List.mem_cons.1 hd with rfl | hd
      · exact absurd hfd h0
      · exact g1 d hd hcov hfd
  | @skip k c cs out r h0 h1 h2 ih =>
    obtain ⟨ho1, ho2⟩ := List.pairwise_cons.1 ho
    obtain ⟨r1, r2, r3⟩ := ih hk (fun d hd => hp d (List.mem_cons_of_mem _ hd)) ho2 (fun d hd => hf d (List.mem_cons_of_mem _ hd))
    refine ⟨r1, r2, fun i hi => ?_⟩
    obtain ⟨g1, g2⟩ := r3 i hi
    refine ⟨fun d hd hcov hfd => ?_, fun hno => g2 fun d hd => hno d (List.mem_cons_of_mem _ hd)⟩
    rcases List.mem_cons.1 hd with rfl | hd
    · exact absurd hfd h0
    · exact g1 d hd hcov hfd

/-- `out` is `l` with the bytes of the clumps whose old bytes are there replaced, and all others as they were. -/
def ReplacedWhereFound (cs : List (DiffClump UInt8)) (l out : List UInt8) : Prop :=
  out.length = l.length ∧ ∀ i, (∀ c ∈ cs, c.Covers i → FoundIn l c.before → out[i]? = c.after.items[i - c.before.start]?) ∧
    ((∀ c ∈ cs, FoundIn l c.before → ¬ c.Covers i) → out[i]? = l[i]?)

/-- A byte patch all of whose clumps replace bytes in place, and any file whatever: the bytes of the clumps whose old bytes are there are
replaced, and nothing else is changed. -/
theorem C154_exact (p : Profile) (cs : List (DiffClump UInt8)) (hp : ∀ c ∈ cs, c.InPlace) (ho : InRow cs) (l : List UInt8)
    (hsz : l.length + weight cs < wordSize) :
    ∃ out, (byteApplyInto p cs l false).run = (.ok (), out) ∧ ReplacedWhereFound cs l out := by
  have hrun : (byteApplyInto p cs l false).run = ((byteApplyInto p cs l false).run.1, (byteApplyInto p cs l false).run.2) := rfl
  obtain ⟨r1, r2, r3⟩ := bytePatching_inPlace ((C60_refines p l cs hsz _ _).1 hrun) (Nat.zero_le _) hp ho fun _ _ => Nat.zero_le _
  exact ⟨_, by rw [← r1], r2, fun i => r3 i (Nat.zero_le _)⟩

theorem foundIn_iff (l : List UInt8) (s : Snippet UInt8) :
    FoundIn l s ↔ s.start < l.length ∧ s.start + s.items.length ≤ l.length ∧ ∀ i < s.items.length, l[s.start + i]? = s.items[i]? := by
  unfold FoundIn
  rw [standsAt_nat]
  refine and_congr_right fun _ => and_congr_right fun h => ?_
  constructor
  · intro e i hi
    rw [← e, cut_getElem?, if_pos (by omega)]
  · intro e
    refine List.ext_getElem? fun i => ?_
    rw [cut_getElem?]
    split
    · exact e i (by omega)
    · rw [List.getElem?_eq_none (by omega)]

theorem foundIn_congr {l l' : List UInt8} {s : Snippet UInt8} (hlen : l'.length = l.length)
    (h : ∀ i, s.start ≤ i → i < s.start + s.items.length → l'[i]? = l[i]?) : FoundIn l' s ↔ FoundIn l s := by
  rw [foundIn_iff, foundIn_iff, hlen]
  refine and_congr_right fun _ => and_congr_right fun _ => ?_
  constructor <;> intro e i hi
  · rw [← h _ (by omega) (by omega), e i hi]
  · rw [h _ (by omega) (by omega), e i hi]

theorem FoundIn.byte {l : List UInt8} {s : Snippet UInt8} (h : FoundIn l s) {i : Nat} (h1 : s.start ≤ i) (h2 : i < s.start + s.items.length) :
    l[i]? = s.items[i - s.start]? := by
  have := ((foundIn_iff l s).1 h).2.2 (i - s.start) (by omega)
  rwa [show s.start + (i - s.start) = i by omega] at this

theorem InRow.same {cs : List (DiffClump UInt8)} (ho : InRow cs) {c d : DiffClump UInt8} (hc : c ∈ cs) (hd : d ∈ cs) {i : Nat}
    (h1 : c.Covers i) (h2 : d.Covers i) : c = d := by
  induction cs with
  | nil => cases hc
  | cons e cs ih =>
    obtain ⟨o1, o2⟩ := List.pairwise_cons.1 ho
    obtain ⟨a1, a2⟩ := h1
    obtain ⟨b1, b2⟩ := h2
    rcases List.mem_cons.1 hc with h3 | h3 <;> rcases List.mem_cons.1 hd with h4 | h4
    · rw [h3, h4]
    · have := o1 d h4
      subst h3
      omega
    · have := o1 c h3
      subst h4
      omega
    · exact ih o2 h3 h4

/-- What stands at the place of a clump of the patch afterwards. -/
theorem ReplacedWhereFound.at {cs : List (DiffClump UInt8)} {l out : List UInt8} (h : ReplacedWhereFound cs l out) (hp : ∀ c ∈ cs, c.InPlace)
    (ho : InRow cs) {c : DiffClump UInt8} (hc : c ∈ cs) :
    (FoundIn l c.before → FoundIn out c.after) ∧
    (¬ FoundIn l c.before → ∀ i, c.Covers i → out[i]? = l[i]?) := by
  obtain ⟨p1, p2⟩ := hp c hc
  refine ⟨fun hf => ?_, fun hf i hi => ?_⟩
  · obtain ⟨f1, f2, -⟩ := (foundIn_iff _ _).1 hf
    rw [foundIn_iff, h.1, p1, p2]
    refine ⟨f1, f2, fun i hi => ?_⟩
    have := (h.2 (c.before.start + i)).1 c hc ⟨by omega, by omega⟩ hf
    rwa [show c.before.start + i - c.before.start = i by omega] at this
  · refine (h.2 i).2 fun d hd hfd hcov => ?_
    rw [ho.same hc hd hi hcov] at hf
    exact hf hfd

/-- Applied again, such a patch changes nothing, whatever the file was. -/
theorem C154_again (p q : Profile) (cs : List (DiffClump UInt8)) (hp : ∀ c ∈ cs, c.InPlace) (ho : InRow cs) (l : List UInt8)
    (hsz : l.length + weight cs < wordSize) :
    ∃ out, (byteApplyInto p cs l false).run = (.ok (), out) ∧ (byteApplyInto q cs out false).run = (.ok (), out) := by
  obtain ⟨out, r1, h1⟩ := C154_exact p cs hp ho l hsz
  obtain ⟨out', r2, h2⟩ := C154_exact q cs hp ho out (by rw [h1.1]; exact hsz)
  suffices out' = out by rw [this] at r2; exact ⟨out, r1, r2⟩
  refine List.ext_getElem? fun i => ?_
  by_cases hc : ∃ c ∈ cs, FoundIn out c.before ∧ c.Covers i
  · obtain ⟨c, hc, hf, hcov⟩ := hc
    obtain ⟨p1, p2⟩ := hp c hc
    rw [(h2.2 i).1 c hc hcov hf]
    by_cases hl : FoundIn l c.before
    · exact ((h1.2 i).1 c hc hcov hl).symm
    · exact absurd ((foundIn_congr h1.1 fun j a b => (h1.at hp ho hc).2 hl j ⟨a, b⟩).1 hf) hl
  · exact (h2.2 i).2 fun c hm hf hcov => hc ⟨c, hm, hf, hcov⟩

/-- Two such patches that do not touch the same bytes can be applied in either order, whatever the file is. -/
theorem C154_either (p : Profile) (cs cs' : List (DiffClump UInt8)) (hp : ∀ c ∈ cs, c.InPlace) (hp' : ∀ c ∈ cs', c.InPlace) (ho : InRow cs)
    (ho' : InRow cs') (hdis : ∀ c ∈ cs, ∀ c' ∈ cs', ∀ i, ¬ (c.Covers i ∧ c'.Covers i)) (l : List UInt8)
    (hsz : l.length + weight cs < wordSize) (hsz' : l.length + weight cs' < wordSize) :
    ∃ m m' out, (byteApplyInto p cs l false).run = (.ok (), m) ∧ (byteApplyInto p cs' m false).run = (.ok (), out) ∧
      (byteApplyInto p cs' l false).run = (.ok (), m') ∧ (byteApplyInto p cs m' false).run = (.ok (), out) := by
  obtain ⟨m, r1, h1⟩ := C154_exact p cs hp ho l hsz
  obtain ⟨m', r2, h2⟩ := C154_exact p cs' hp' ho' l hsz'
  obtain ⟨out, r3, h3⟩ := C154_exact p cs' hp' ho' m (by rw [h1.1]; exact hsz')
  obtain ⟨out', r4, h4⟩ := C154_exact p cs hp ho m' (by rw [h2.1]; exact hsz)
  have f1 : ∀ c ∈ cs, (FoundIn m' c.before ↔ FoundIn l c.before) := fun c hc => foundIn_congr h2.1 fun i a b =>
    (h2.2 i).2 fun d hd _ hcov => hdis c hc d hd i ⟨⟨a, b⟩, hcov⟩
  have f2 : ∀ c ∈ cs', (FoundIn m c.before ↔ FoundIn l c.before) := fun c hc => foundIn_congr h1.1 fun i a b =>
    (h1.2 i).2 fun d hd _ hcov => hdis d hd c hc i ⟨hcov, ⟨a, b⟩⟩
  suffices out' = out by rw [this] at r4; exact ⟨m, m', out, r1, r3, r2, r4⟩
  refine List.ext_getElem? fun i => ?_
  by_cases hc : ∃ c ∈ cs, FoundIn l c.before ∧ c.Covers i
  · obtain ⟨c, hc, hf, hcov⟩ := hc
    rw [(h4.2 i).1 c hc hcov ((f1 c hc).2 hf), (h3.2 i).2 fun d hd _ hd2 => hdis c hc d hd i ⟨hcov, hd2⟩, (h1.2 i).1 c hc hcov hf]
  · rw [(h4.2 i).2 fun d hd hf hd2 => hc ⟨d, hd, (f1 d hd).1 hf, hd2⟩]
    have e1 := (h1.2 i).2 fun d hd hf hd2 => hc ⟨d, hd, hf, hd2⟩
    by_cases hc' : ∃ c ∈ cs', FoundIn l c.before ∧ c.Covers i
    · obtain ⟨c, hc, hf, hcov⟩ := hc'
      rw [(h3.2 i).1 c hc hcov ((f2 c hc).2 hf), (h2.2 i).1 c hc hcov hf]
    · rw [(h3.2 i).2 fun d hd hf hd2 => hc' ⟨d, hd, (f2 d hd).1 hf, hd2⟩, e1, (h2.2 i).2 fun d hd hf hd2 => hc' ⟨d, hd, hf, hd2⟩]

theorem weight_swapped (cs : List (DiffClump UInt8)) : weight (cs.map DiffClump.swap) = weight cs := by
  induction cs with
  | nil => rfl
  | cons c cs ih =>
    simp only [List.map_cons, weight, ih, DiffClump.swap]
    omega

theorem inPlace_swapped {cs : List (DiffClump UInt8)} (hp : ∀ c ∈ cs, c.InPlace) (ho : InRow cs) :
    (∀ c ∈ cs.map DiffClump.swap, c.InPlace) ∧ InRow (cs.map DiffClump.swap) := by
  constructor
  · intro c hc
    obtain ⟨d, hd, rfl⟩ := List.mem_map.1 hc
    exact ⟨(hp d hd).1.symm, (hp d hd).2.symm⟩
  · unfold InRow
    rw [List.pairwise_map]
    refine List.Pairwise.imp_of_mem ?_ ho
    intro c d hc hd h
    obtain ⟨c1, c2⟩ := hp c hc
    obtain ⟨d1, -⟩ := hp d hd
    simp only [DiffClump.swap]
    omega

/-- Taking such a patch back after it was applied gives the file that was there if and only if no clump was there already, its new bytes
being there and not the old ones. -/
theorem C154_back (p q : Profile) (cs : List (DiffClump UInt8)) (hp : ∀ c ∈ cs, c.InPlace) (ho : InRow cs) (l : List UInt8)
    (hsz : l.length + weight cs < wordSize) :
    ∃ out, (byteApplyInto p cs l false).run = (.ok (), out) ∧
      ((byteApplyInto q cs out true).run = (.ok (), l) ↔ ∀ c ∈ cs, FoundIn l c.after → FoundIn l c.before) := by
  obtain ⟨out, r1, h1⟩ := C154_exact p cs hp ho l hsz
  obtain ⟨hp', ho'⟩ := inPlace_swapped hp ho
  obtain ⟨back, r2, h2⟩ := C154_exact q (cs.map DiffClump.swap) hp' ho' out (by rw [weight_swapped, h1.1]; exact hsz)
  rw [byteApply_swap] at r2
  refine ⟨out, r1, ?_⟩
  have hcov : ∀ c ∈ cs, ∀ i, c.swap.Covers i ↔ c.Covers i := by
    intro c hc i
    obtain ⟨p1, p2⟩ := hp c hc
    simp only [DiffClump.Covers, DiffClump.swap, p1, p2]
  have hback : ∀ c ∈ cs, FoundIn out c.after → ∀ i, c.Covers i → back[i]? = c.before.items[i - c.before.start]? := by
    intro c hc hf i hi
    have := (h2.2 i).1 c.swap (List.mem_map_of_mem hc) ((hcov c hc i).2 hi) hf
    simp only [DiffClump.swap, (hp c hc).1] at this
    exact this
  constructor
  · intro e c hc hf
    have eb : back = l := congrArg Prod.snd (r2.symm.trans e)
    obtain ⟨p1, p2⟩ := hp c hc
    by_cases hl : FoundIn l c.before
    · exact hl
    · have hfo : FoundIn out c.after := (foundIn_congr h1.1 fun i a b => (h1.at hp ho hc).2 hl i (by
        rw [p1] at a b
        rw [p2] at b
        exact ⟨a, b⟩)).2 hf
      have hb := hback c hc hfo
      rw [eb] at hb
      obtain ⟨g1, g2, -⟩ := (foundIn_iff _ _).1 hf
      rw [p1] at g1 g2
      rw [p2] at g2
      refine (foundIn_iff _ _).2 ⟨g1, g2, fun i hi => ?_⟩
      have := hb (c.before.start + i) ⟨by omega, by omega⟩
      rwa [show c.before.start + i - c.before.start = i by omega] at this
  · intro h
    suffices back = l by rw [← this]; exact r2
    refine List.ext_getElem? fun i => ?_
    by_cases hc : ∃ c ∈ cs, c.Covers i ∧ FoundIn out c.after
    · obtain ⟨c, hc, hi, hf⟩ := hc
      obtain ⟨p1, p2⟩ := hp c hc
      have hl : FoundIn l c.before := by
        by_cases hl : FoundIn l c.before
        · exact hl
        · refine h c hc ((foundIn_congr h1.1 fun i a b => (h1.at hp ho hc).2 hl i (by
            rw [p1] at a b
            rw [p2] at b
            exact ⟨a, b⟩)).1 hf)
      rw [hback c hc hf i hi]
      exact (hl.byte hi.1 hi.2).symm
    · have e1 : back[i]? = out[i]? := (h2.2 i).2 fun d hd hf hi => by
        obtain ⟨c, hm, rfl⟩ := List.mem_map.1 hd
        exact hc ⟨c, hm, (hcov c hm i).1 hi, hf⟩
      rw [e1]
      exact (h1.2 i).2 fun d hd hf hi => hc ⟨d, hd, hi, (h1.at hp ho hd).1 hf⟩

/-- The clumps of the patch from 1 2 3 4 5 6 7 7 8 to 1 9 3 4 5 6 0 0 8. -/
def inPlaceClumps : List (DiffClump UInt8) := [⟨(1, 1), ⟨0, [1, 2, 3]⟩, ⟨0, [1, 9, 3]⟩⟩, ⟨(1, 1), ⟨5, [6, 7, 7, 8]⟩, ⟨5, [6, 0, 0, 8]⟩⟩]

theorem inPlaceClumps_diff : diffClumps .debug ([1, 2, 3, 4, 5, 6, 7, 7, 8] : List UInt8) [1, 9, 3, 4, 5, 6, 0, 0, 8] 1 = .ok inPlaceClumps := by
  decide +kernel

instance (c : DiffClump UInt8) : Decidable c.InPlace := by unfold DiffClump.InPlace; infer_instance

theorem inPlaceClumps_row : InRow inPlaceClumps := by
  unfold InRow
  decide

/-- Only one of the clumps fits, in this file: it is applied, and the other leaves no trace. -/
example (p : Profile) := C154_exact p inPlaceClumps (by decide) inPlaceClumps_row [1, 2, 3, 7, 7, 7, 7, 7, 7] (by decide +kernel)

example : (byteApplyInto .debug inPlaceClumps [1, 2, 3, 7, 7, 7, 7, 7, 7] false).run = (.ok (), [1, 9, 3, 7, 7, 7, 7, 7, 7]) := by decide +kernel

example (p q : Profile) := C154_again p q inPlaceClumps (by decide) inPlaceClumps_row [1, 2, 3, 7, 7, 7, 7, 7, 7] (by decide +kernel)

/-- With a patch of the two bytes between them. -/
example (p : Profile) := C154_either p inPlaceClumps [⟨(0, 0), ⟨3, [4, 5]⟩, ⟨3, [5, 4]⟩⟩] (by decide) (by decide) inPlaceClumps_row
  (by unfold InRow; decide) (by
    intro c hc c' hc' i h
    simp only [inPlaceClumps, List.mem_cons, List.not_mem_nil, or_false] at hc hc'
    obtain ⟨⟨h1, h2⟩, h3, h4⟩ := h
    subst hc'
    rcases hc with rfl | rfl <;> simp only [List.length_cons, List.length_nil] at h1 h2 h3 h4 <;> omega)
  [1, 2, 3, 4, 5, 6, 7, 7, 8] (by decide +kernel) (by decide +kernel)

/-- The second clump is there already. -/
example (p q : Profile) := C154_back p q inPlaceClumps (by decide) inPlaceClumps_row [1, 2, 3, 4, 5, 6, 0, 0, 8] (by decide +kernel)

/-- Taken back, it is taken back too. -/
example : (byteApplyInto .debug inPlaceClumps [1, 2, 3, 4, 5, 6, 0, 0, 8] false).run = (.ok (), [1, 9, 3, 4, 5, 6, 0, 0, 8]) ∧
    (byteApplyInto .debug inPlaceClumps [1, 9, 3, 4, 5, 6, 0, 0, 8] true).run = (.ok (), [1, 2, 3, 4, 5, 6, 7, 7, 8]) := by decide +kernel

/-- The same of `pw_patch`: two such patches for one file, whatever is in it, are applied in either order. All runs end with exit status 0
and the same is left; and applying the first once more changes nothing. -/
theorem C154_program (q : Profile) (temp patch patch' target : Path) (w : World) (hf : w.faults = []) (d d' : ByteChangeDiff)
    (content content' : List UInt8) (hp : w.fs.node (w.fs.entry patch) = some (.file content))
    (hp' : w.fs.node (w.fs.entry patch') = some (.file content')) (hc : Diff.fromReader ⟨content, false⟩ = .ok (.byteChange d))
    (hc' : Diff.fromReader ⟨content', false⟩ = .ok (.byteChange d')) (ht : d.beforePath = target) (ht' : d'.beforePath = target)
    (hfree : w.fs.node (w.fs.entry temp) = none) (hne : w.fs.entry patch ≠ w.fs.entry target) (hne' : w.fs.entry patch' ≠ w.fs.entry target)
    (l : List UInt8) (hold : w.fs.node (w.fs.entry target) = some (.file l))
    (hi : ∀ c ∈ d.clumps, c.InPlace) (hi' : ∀ c ∈ d'.clumps, c.InPlace) (ho : InRow d.clumps) (ho' : InRow d'.clumps)
    (hdis : ∀ c ∈ d.clumps, ∀ c' ∈ d'.clumps, ∀ i, ¬ (c.Covers i ∧ c'.Covers i))
    (hsz : l.length + weight d.clumps < wordSize) (hsz' : l.length + weight d'.clumps < wordSize) :
    ∃ v v' u : World, (pwPatch q temp patch false).run w = (.exited 0, v) ∧ (pwPatch q temp patch' false).run v = (.exited 0, u) ∧
      (pwPatch q temp patch' false).run w = (.exited 0, v') ∧ (pwPatch q temp patch false).run v' = (.exited 0, u) ∧
      (pwPatch q temp patch false).run v = (.exited 0, v) := by
  have hnt : w.fs.entry temp ≠ w.fs.entry target := by
    intro e
    rw [e, hold] at hfree
    cases hfree
  obtain ⟨m, m', out, r1, r2, r3, r4⟩ := C154_either q d.clumps d'.clumps hi hi' ho ho' hdis l hsz hsz'
  obtain ⟨m2, r5, r6⟩ := C154_again q q d.clumps hi ho l hsz
  obtain rfl : m = m2 := congrArg Prod.snd (r1.symm.trans r5)
  have one : ∀ (a b : List UInt8), (byteApplyInto q d.clumps a false).run = (.ok (), b) →
      (pwPatch q temp patch false).run { w with fs := w.fs.set (w.fs.entry target) (some (.file a)) } =
        (.exited 0, { w with fs := w.fs.set (w.fs.entry target) (some (.file b)) }) := by
    intro a b h
    have := C46_normal q temp patch target false { w with fs := w.fs.set (w.fs.entry target) (some (.file a)) }
      (.byteChange d) ⟨⟨content, false⟩, FS.contentAt_of_file (by simp [hne, hp]), hc⟩ (congrArg some ht) hf (by simp [hnt, hfree])
      (FS.contentAt_of_file (c := a) (by simp)) h
    rw [this]
    simp only [FS.set_entry, FS.set_set]
  have two : ∀ (a b : List UInt8), (byteApplyInto q d'.clumps a false).run = (.ok (), b) →
      (pwPatch q temp patch' false).run { w with fs := w.fs.set (w.fs.entry target) (some (.file a)) } =
        (.exited 0, { w with fs := w.fs.set (w.fs.entry target) (some (.file b)) }) := by
    intro a b h
    have := C46_normal q temp patch' target false { w with fs := w.fs.set (w.fs.entry target) (some (.file a)) }
      (.byteChange d') ⟨⟨content', false⟩, FS.contentAt_of_file (by simp [hne', hp']), hc'⟩ (congrArg some ht') hf (by simp [hnt, hfree])
      (FS.contentAt_of_file (c := a) (by simp)) h
    rw [this]
    simp only [FS.set_entry, FS.set_set]
  have s1 := one l m r1
  have s3 := two l m' r3
  rw [FS.set_same _ hold] at s1 s3
  exact ⟨_, _, _, s1, two m out r2, s3, one m' out r4, one m m r6⟩

/-- The situation: `A` is any file of nine bytes, and `C` and `D` are these two patches. -/
example (q : Profile) (l : List UInt8) (hl : l.length = 9) : ∃ w v v' u : World, w.fs.contentAt [65] = some ⟨l, false⟩ ∧
    (pwPatch q [84] [67] false).run w = (.exited 0, v) ∧ (pwPatch q [84] [68] false).run v = (.exited 0, u) ∧
    (pwPatch q [84] [68] false).run w = (.exited 0, v') ∧ (pwPatch q [84] [67] false).run v' = (.exited 0, u) := by
  obtain ⟨e1, e2, e3, e4, e5, e6, e7, e8, e9, e10, e11⟩ := FS.ofFiles_patches l
    (Diff.byteChange ⟨[65], [66], false, inPlaceClumps⟩).fileContent
    (Diff.byteChange ⟨[65], [66], false, [⟨(0, 0), ⟨3, [4, 5]⟩, ⟨3, [5, 4]⟩⟩]⟩).fileContent
  generalize FS.ofFiles [([65], _), ([67], _), ([68], _)] = fs at *
  have read : ∀ (path : Path) (cs : List (DiffClump UInt8)), (∀ c ∈ cs, c.InRange) →
      fs.contentAt path = some ⟨(Diff.byteChange ⟨[65], [66], false, cs⟩).fileContent, false⟩ →
      Diff.fromReader ⟨(Diff.byteChange ⟨[65], [66], false, cs⟩).fileContent, false⟩ = .ok (.byteChange ⟨[65], [66], false, cs⟩) := by
    intro path cs hr hc
    have : HoldsDiff fs path (.byteChange ⟨[65], [66], false, cs⟩) := by
      refine holdsDiff_of_file hr ?_ hc
      intro path h
      simp only [Diff.paths, List.mem_cons, List.not_mem_nil, or_false] at h
      rcases h with rfl | rfl
      · exact ⟨['A'], by decide⟩
      · exact ⟨['B'], by decide⟩
    obtain ⟨r, hr1, hr2⟩ := this
    obtain rfl := Option.some.inj (hc.symm.trans hr1)
    exact hr2
  obtain ⟨v, v', u, g1, g2, g3, g4, -⟩ := C154_program q [84] [67] [68] [65] ⟨fs, [], []⟩ rfl _ _ _ _ (by rw [e2, e6]) (by rw [e3, e7])
    (read [67] _ (by
      intro c hc
      simp [inPlaceClumps] at hc
      rcases hc with rfl | rfl <;> simp [DiffClump.InRange, wordSize]) e10)
    (read [68] _ (by
      intro c hc
      simp at hc
      subst hc
      simp [DiffClump.InRange, wordSize]) e11) rfl rfl (by rw [e4, e8]) (by rw [e1, e2]; decide) (by rw [e1, e3]; decide)
    l (by rw [e1, e5]) (by decide) (by decide) inPlaceClumps_row (by unfold InRow; decide) (by
      intro c hc c' hc' i h
      simp only [inPlaceClumps, List.mem_cons, List.not_mem_nil, or_false] at hc hc'
      obtain ⟨⟨h1, h2⟩, h3, h4⟩ := h
      subst hc'
      rcases hc with rfl | rfl <;> simp only [List.length_cons, List.length_nil] at h1 h2 h3 h4 <;> omega)
    (by rw [hl]; decide +kernel) (by rw [hl]; decide +kernel)
  exact ⟨_, v, v', u, e9, g1, g2, g3, g4⟩

end PwDiff
