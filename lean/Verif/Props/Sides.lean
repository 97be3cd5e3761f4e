import Verif.Props.Apply
import Verif.Proofs.UnifiedParse

/-! # The sides of changes and clumps (C90) and the work of the search (C91) -/

namespace PwDiff

variable {T : Type}

/-! ## C90 -/

/-- Five accessors of a side tell that it has `n` items from position `s` on; with reductions `r` the ranges are shorter by
`r.1` at the start and by `r.2` at the end. -/
structure Tells (start : Nat) (fin length : Outcome Nat) (range mine : Option (Nat × Nat) → Outcome Range) (s n : Nat) :
    Prop where
  isStart : start = s
  isFin : fin = .ok (s + n)
  isLength : length = .ok n
  isRange : range none = .ok ⟨s, s + n⟩
  isMine : mine none = .ok ⟨0, n⟩
  reduced : ∀ r : Nat × Nat, r.1 + r.2 ≤ n → range (some r) = .ok ⟨s + r.1, s + n - r.2⟩ ∧ mine (some r) = .ok ⟨r.1, n - r.2⟩

/-- The `before_` accessors in direction `reverse` tell about the side `(s, n)` and the `after_` accessors about `(s', n')`. -/
def TellsBoth {C : Type} [ChangeBasics C] (p : Profile) (c : C) (reverse : Bool) (s n s' n' : Nat) : Prop :=
  Tells (ChangeBasics.beforeStart c reverse) (ChangeBasics.beforeEnd p c reverse) (ChangeBasics.beforeLength p c reverse)
    (fun r => ChangeBasics.beforeRange p c r reverse) (fun r => ChangeBasics.myBeforeRange p c r reverse) s n ∧
  Tells (ChangeBasics.afterStart c reverse) (ChangeBasics.afterEnd p c reverse) (ChangeBasics.afterLength p c reverse)
    (fun r => ChangeBasics.afterRange p c r reverse) (fun r => ChangeBasics.myAfterRange p c r reverse) s' n'

theorem tells_of {C : Type} [ChangeBasics C] {p : Profile} {c : C} {rev : Bool} {s n : Nat}
    (h1 : ChangeBasics.beforeStart c rev = s) (h2 : ChangeBasics.beforeEnd p c rev = .ok (s + n))
    (h3 : ChangeBasics.beforeLength p c rev = .ok n) (hw : s + n < wordSize) :
    Tells (ChangeBasics.beforeStart c rev) (ChangeBasics.beforeEnd p c rev) (ChangeBasics.beforeLength p c rev)
      (fun r => ChangeBasics.beforeRange p c r rev) (fun r => ChangeBasics.myBeforeRange p c r rev) s n := by
  refine ⟨h1, h2, h3, ?_, ?_, ?_⟩
  · simp only [ChangeBasics.beforeRange, h1, h2]; rfl
  · simp only [ChangeBasics.myBeforeRange, h3]; rfl
  · rintro ⟨r0, r1⟩ hr
    simp only at hr
    constructor
    · simp only [ChangeBasics.beforeRange, h1, h2]
      rw [uadd_ok (by omega)]
      simp only [Outcome.ok_bind]
      rw [usub_ok (by omega)]; rfl
    · simp only [ChangeBasics.myBeforeRange, h3, Outcome.ok_bind]
      rw [usub_ok (by omega)]; rfl

/-- The accessors of a patch clump: in either direction `before_` is the side to be replaced and `after_` the side that
replaces it. -/
theorem C90_clump (p : Profile) (c : DiffClump T) (h1 : c.before.start + c.before.items.length < wordSize)
    (h2 : c.after.start + c.after.items.length < wordSize) :
    TellsBoth p c false c.before.start c.before.items.length c.after.start c.after.items.length ∧
    TellsBoth p c true c.after.start c.after.items.length c.before.start c.before.items.length := by
  have key : ∀ rev, (c.beforeSide rev).start + (c.beforeSide rev).items.length < wordSize →
      Tells (ChangeBasics.beforeStart c rev) (ChangeBasics.beforeEnd p c rev) (ChangeBasics.beforeLength p c rev)
        (fun r => ChangeBasics.beforeRange p c r rev) (fun r => ChangeBasics.myBeforeRange p c r rev)
        (c.beforeSide rev).start (c.beforeSide rev).items.length := by
    intro rev hw
    refine tells_of rfl (uadd_ok hw) ?_ hw
    show ChangeBasics.defaultBeforeLength p _ _ = _
    unfold ChangeBasics.defaultBeforeLength
    rw [uadd_ok hw]
    simp only [Outcome.ok_bind]
    rw [usub_ok (by omega)]
    congr 1; omega
  exact ⟨⟨key false h1, key true h2⟩, ⟨key true h2, key false h1⟩⟩

/-- The accessors of a change between two sequences. -/
theorem C90_change (p : Profile) (c : Change) (h1 : c.old.start ≤ c.old.fin) (h2 : c.new.start ≤ c.new.fin)
    (h3 : c.old.fin < wordSize) (h4 : c.new.fin < wordSize) :
    TellsBoth p c false c.old.start (c.old.fin - c.old.start) c.new.start (c.new.fin - c.new.start) ∧
    TellsBoth p c true c.new.start (c.new.fin - c.new.start) c.old.start (c.old.fin - c.old.start) := by
  have key : ∀ (rev : Bool) (r : Range), c.beforeStart rev = r.start → c.beforeEnd rev = r.fin → r.start ≤ r.fin → r.fin < wordSize →
      Tells (ChangeBasics.beforeStart c rev) (ChangeBasics.beforeEnd p c rev) (ChangeBasics.beforeLength p c rev)
        (fun r => ChangeBasics.beforeRange p c r rev) (fun r => ChangeBasics.myBeforeRange p c r rev)
        r.start (r.fin - r.start) := by
    intro rev r e1 e2 h hw
    refine tells_of e1 ?_ ?_ (by omega)
    · show Outcome.ok (c.beforeEnd rev) = _
      rw [e2]; congr 1; omega
    · show ChangeBasics.defaultBeforeLength p (c.beforeStart rev) (.ok (c.beforeEnd rev)) = _
      unfold ChangeBasics.defaultBeforeLength
      rw [e1, e2]
      simp only [Outcome.ok_bind]
      rw [usub_ok h]
  have f := key false c.old (by cases c <;> rfl) (by cases c <;> rfl) h1 h3
  have t := key true c.new (by cases c <;> rfl) (by cases c <;> rfl) h2 h4
  exact ⟨⟨f, t⟩, ⟨t, f⟩⟩

/-- The accessors of a parsed hunk: what its header announces. -/
theorem C90_hunk (p : Profile) (c : UnifiedDiffClump)
    (h1 : c.startsAndLengths.before.start + c.startsAndLengths.before.length < wordSize)
    (h2 : c.startsAndLengths.after.start + c.startsAndLengths.after.length < wordSize) :
    TellsBoth p c false c.startsAndLengths.before.start c.startsAndLengths.before.length
      c.startsAndLengths.after.start c.startsAndLengths.after.length ∧
    TellsBoth p c true c.startsAndLengths.after.start c.startsAndLengths.after.length
      c.startsAndLengths.before.start c.startsAndLengths.before.length := by
  have f := tells_of (p := p) (c := c) (rev := false) rfl (uadd_ok h1) rfl h1
  have t := tells_of (p := p) (c := c) (rev := true) rfl (uadd_ok h2) rfl h2
  exact ⟨⟨f, t⟩, ⟨t, f⟩⟩

example : TellsBoth .debug (⟨(1, 0), ⟨4, [1, 2]⟩, ⟨5, [1, 2, 3]⟩⟩ : DiffClump UInt8) true 5 3 4 2 :=
  (C90_clump .debug (⟨(1, 0), ⟨4, [1, 2]⟩, ⟨5, [1, 2, 3]⟩⟩ : DiffClump UInt8) (by decide) (by decide)).2
example : TellsBoth .release (.insert 4 ⟨5, 7⟩ : Change) false 4 0 5 2 :=
  (C90_change .release (.insert 4 ⟨5, 7⟩) (by decide) (by decide) (by decide) (by decide)).1

/-! ## C91 -/

/-- The number of rounds (one place backwards, one forwards) of a search around `pos` between `low` and `limit` with answer
`r`: up to the place found, or until both bounds are reached. -/
def rounds (pos low limit : Int) : Option (Int × WillApply) → Nat
  | some (d, _) => d.natAbs
  | none => (max 1 (max (pos - low + 1) (limit - pos))).toNat

section work

open ChangeBasics TextClump

variable [DecidableEq T] {C : Type} [TextClump C T] {p : Profile} {c : C} {reverse : Bool} {s : Nat} {items : List T}

theorem nearbyLoop_rounds (h : SideIs p c reverse s items) (hc : CtxFits (contextLengths c) items) (pd : ConsumableSeq T)
    {notAfter : Nat} {offset : Int} (hs : s + items.length < quarterWord)
    (ho : -(eighthWord : Int) ≤ offset ∧ offset < eighthWord) (hcons : pd.consumed < quarterWord)
    (hlim : asIsize notAfter ≤ quarterWord) {r : Option (Int × WillApply)}
    (hr : Nearest items (contextLengths c) pd.sequence (s + offset) pd.consumed (asIsize notAfter) r)
    (fuel : Nat) (i : Int) (bd fd : Bool) (hi : 1 ≤ i)
    (hle : i ≤ rounds (s + offset) pd.consumed (asIsize notAfter) r)
    (hbd : bd = true → (s : Int) + offset - i < pd.consumed) (hnbd : bd = false → i = 1 ∨ (pd.consumed : Int) ≤ s + offset - (i - 1))
    (hfd : fd = true → asIsize notAfter ≤ (s : Int) + offset + i)
    (hnfd : fd = false → i = 1 ∨ (s : Int) + offset + (i - 1) < asIsize notAfter)
    (hprev : ∀ d : Int, InBounds (s + offset) pd.consumed (asIsize notAfter) d → (d.natAbs : Int) < i →
      Fits items (contextLengths c) pd.sequence (s + offset + d) none) :
    nearbyLoop p c pd notAfter offset reverse fuel i bd fd =
      if fuel + i ≤ rounds (s + offset) pd.consumed (asIsize notAfter) r then .diverge else .ok r := by
  induction fuel generalizing i bd fd with
  | zero => rw [if_pos (by omega)]; rfl
  | succ fuel ih =>
    have ho' := eighthWord_le ho
    have hrn : (rounds (s + offset) pd.consumed (asIsize notAfter) r : Int) ≤
        max 1 (max (s + offset - pd.consumed + 1) (asIsize notAfter - (s + offset))) := by
      rcases r with _ | ⟨d, w⟩
      · simp only [rounds]; omega
      · have hb := hr.1
        simp only [rounds]
        rcases hb with hb | hb <;> omega
    have hi' : i + 1 < halfWord ∧ -(halfWord : Int) ≤ -i := by
      simp only [quarterWord, eighthWord, halfWord] at *; omega
    clear hrn
    rw [nearbyLoop, iadd_ok (by omega) hi'.1]
    obtain ⟨w, bd', e1, e2⟩ := nearbyBackward_spec h hc pd hs ho' hcons hi hbd hnbd
    simp only [Outcome.ok_bind]
    rw [e1]
    simp only [Outcome.ok_bind]
    cases w with
    | some w =>
      rcases e2 with ⟨-, hw, -⟩ | ⟨-, e3, e4⟩
      · simp at hw
      · have hr' : Nearest items (contextLengths c) pd.sequence (s + offset) pd.consumed (asIsize notAfter) (some (-i, w)) := by
          refine ⟨.inl ⟨by omega, by omega⟩, e4, ?_, by omega⟩
          intro d' hb hlt
          exact hprev d' hb (by omega)
        obtain rfl := nearest_unique hr hr'
        simp only
        rw [iadd_ok (by omega) (by omega), Int.zero_add, if_neg (by simp only [rounds]; omega)]
        rfl
    | none =>
      obtain ⟨w, fd', f1, f2⟩ := nearbyForward_spec h hc pd (fd := fd) hs ho' hlim hi hfd hnfd
      simp only
      rw [f1]
      simp only [Outcome.ok_bind]
      have hback : InBounds (s + offset) pd.consumed (asIsize notAfter) (-i) →
          Fits items (contextLengths c) pd.sequence (s + offset + -i) none := by
        intro hb
        rcases e2 with ⟨-, -, e3⟩ | ⟨-, -, e4⟩
        · rcases hb with hb | hb <;> omega
        · exact e4
      cases w with
      | some w =>
        rcases f2 with ⟨-, hw, -⟩ | ⟨-, f3, f4⟩
        · simp at hw
        · have hr' : Nearest items (contextLengths c) pd.sequence (s + offset) pd.consumed (asIsize notAfter) (some (i, w)) := by
            refine ⟨.inr ⟨by omega, by omega⟩, f4, ?_, fun _ => hback⟩
            intro d' hb hlt
            exact hprev d' hb (by omega)
          obtain rfl := nearest_unique hr hr'
          show Outcome.ok (some (i, w)) = _
          rw [if_neg (by simp only [rounds]; omega)]
      | none =>
        simp only
        have hfwd : InBounds (s + offset) pd.consumed (asIsize notAfter) i →
            Fits items (contextLengths c) pd.sequence (s + offset + i) none := by
          intro hb
          rcases f2 with ⟨-, -, f3⟩ | ⟨-, -, f4⟩
          · rcases hb with hb | hb <;> omega
          · exact f4
        have hprev' : ∀ d : Int, InBounds (s + offset) pd.consumed (asIsize notAfter) d → (d.natAbs : Int) < i + 1 →
            Fits items (contextLengths c) pd.sequence (s + offset + d) none := by
          intro d hb hlt
          by_cases h1 : d = i
          · subst h1; exact hfwd hb
          · by_cases h2 : d = -i
            · subst h2; exact hback hb
            · exact hprev d hb (by omega)
        have k1 : bd' = true → (s : Int) + offset - i < pd.consumed := by
          intro hb
          rcases e2 with ⟨-, -, e3⟩ | ⟨h, -⟩
          · exact e3
          · rw [hb] at h; simp at h
        have k2 : bd' = false → (pd.consumed : Int) ≤ s + offset - i := by
          intro hb
          rcases e2 with ⟨h, -⟩ | ⟨-, e3, -⟩
          · rw [hb] at h; simp at h
          · exact e3
        have k3 : fd' = true → asIsize notAfter ≤ (s : Int) + offset + i := by
          intro hb
          rcases f2 with ⟨-, -, f3⟩ | ⟨h, -⟩
          · exact f3
          · rw [hb] at h; simp at h
        have k4 : fd' = false → (s : Int) + offset + i < asIsize notAfter := by
          intro hb
          rcases f2 with ⟨h, -⟩ | ⟨-, f3, -⟩
          · rw [hb] at h; simp at h
          · exact f3
        have found : ∀ d w, r = some (d, w) → i + 1 ≤ d.natAbs := by
          rintro d w rfl
          obtain ⟨hb, hf, -⟩ := hr
          rcases Int.lt_or_le (d.natAbs : Int) (i + 1) with hlt | hge
          · exact absurd (fits_unique hf (hprev' d hb hlt)) (by simp)
          · exact hge
        cases hdone : (fd' && bd') with
        | true =>
          rw [if_pos rfl]
          simp at hdone
          have a1 := k3 hdone.1
          have a2 := k1 hdone.2
          rcases r with _ | ⟨d, w⟩
          · rw [if_neg (by simp only [rounds] at hle ⊢; omega)]
            rfl
          · have := found d w rfl
            have hb := hr.1
            rcases hb with hb | hb <;> omega
        | false =>
          rw [if_neg (by simp)]
          rw [ih (i + 1) bd' fd' (by omega)]
          · congr 1
            exact propext ⟨fun h => by omega, fun h => by omega⟩
          · rcases r with _ | ⟨d, w⟩
            · simp only [rounds]
              cases hb : bd' with
              | false => have := k2 hb; omega
              | true =>
                cases hf : fd' with
                | false => have := k4 hf; omega
                | true => rw [hb, hf] at hdone; simp at hdone
            · exact found d w rfl
          · intro hb; have := k1 hb; omega
          · intro hb; right; have := k2 hb; omega
          · intro hb; have := k3 hb; omega
          · intro hb; right; have := k4 hb; omega
          · exact hprev'

end work

section work

variable [DecidableEq T]

/-- The number of rounds of `will_apply_nearby`, exactly: with fewer the loop is not at its end, and with as many or more it
has ended with the answer. -/
theorem C91_rounds (p : Profile) (c : DiffClump T) (next : Option (DiffClump T)) (l : List T) (consumed : Nat)
    (offset : Int) (rev : Bool) (hw : c.WellFormed) (hn : ∀ n ∈ next, n.WellFormed)
    (ho : -(sizeLimit : Int) < offset ∧ offset < sizeLimit) (hl : l.length < sizeLimit) (hk : consumed < sizeLimit)
    (hu : ¬ (p = .debug ∧ Underflow l c.contextLengths (c.beforeSide rev) (next.map (·.beforeSide rev)) offset)) :
    ∃ n r, nearbyLimit p c ⟨l, consumed⟩ next offset rev = .ok n ∧
      willApplyNearby p c ⟨l, consumed⟩ next offset rev = .ok r ∧
      ∀ fuel, nearbyLoop p c ⟨l, consumed⟩ n offset rev fuel 1 false false =
        if fuel < rounds ((c.beforeSide rev).start + offset) consumed
            (searchLimit l c.contextLengths (c.beforeSide rev) (next.map (·.beforeSide rev)) offset) r
        then .diverge else .ok r := by
  have hs : SideIs p c rev (c.beforeSide rev).start (c.beforeSide rev).items := by
    cases rev with
    | false => exact sideBefore p hw
    | true => exact sideAfter p hw
  have hc : c.contextLengths.1 + c.contextLengths.2 ≤ (c.beforeSide rev).items.length := by
    cases rev with
    | false => exact hw.ctxBefore
    | true => exact hw.ctxAfter
  have hsz : (c.beforeSide rev).start + (c.beforeSide rev).items.length < sizeLimit := by
    cases rev with
    | false => exact hw.sizeBefore
    | true => exact hw.sizeAfter
  obtain ⟨n, e1, e2⟩ := (nearbyLimit_spec p hs hc hsz consumed rfl hn ho hl).2 hu
  obtain ⟨r, e3, e4⟩ := (nearby_searched p hs hc hsz (l := l) (k := consumed) (next := next) rfl hn ho hl hk).2 hu
  refine ⟨n, r, e1, e3, fun fuel => ?_⟩
  unfold Searched at e4
  rw [← e2] at e4 ⊢
  have hpos : 1 ≤ rounds ((c.beforeSide rev).start + offset) consumed (asIsize n) r := by
    rcases r with _ | ⟨d, w⟩
    · simp only [rounds]; omega
    · have hb := e4.1
      simp only [rounds]
      rcases hb with hb | hb <;> omega
  have hlim : asIsize n ≤ quarterWord := by
    rw [e2]
    unfold searchLimit searchRoom
    have : c.contextLengths.1 < sizeLimit := by omega
    cases next with
    | none => simp only [Option.map_none, quarterWord, sizeLimit] at *; omega
    | some x =>
      have hx : (x.beforeSide rev).start < sizeLimit := by
        have := hn x rfl
        cases rev with
        | false => exact Nat.lt_of_le_of_lt (Nat.le_add_right _ _) this.sizeBefore
        | true => exact Nat.lt_of_le_of_lt (Nat.le_add_right _ _) this.sizeAfter
      simp only [Option.map_some, quarterWord, sizeLimit] at *; omega
  have key : nearbyLoop p c ⟨l, consumed⟩ n offset rev fuel 1 false false =
      if (fuel : Int) + 1 ≤ rounds ((c.beforeSide rev).start + offset) consumed (asIsize n) r then .diverge else .ok r := by
    refine nearbyLoop_rounds hs hc ⟨l, consumed⟩ (Nat.lt_trans hsz (by decide)) ⟨?_, ?_⟩ (Nat.lt_trans hk (by decide)) hlim e4 fuel 1
      false false (by omega) (Int.ofNat_le.mpr hpos) (by simp) (by simp) (by simp) (by simp) ?_
    · simp only [eighthWord, sizeLimit] at *; omega
    · simp only [eighthWord, sizeLimit] at *; omega
    · intro d hb hlt
      have : d = 0 := by omega
      subst this
      rcases hb with hb | hb <;> omega
  rw [key]
  by_cases hh : fuel < rounds ((c.beforeSide rev).start + offset) consumed (asIsize n) r
  · rw [if_pos hh, if_pos (by omega)]
  · rw [if_neg hh, if_neg (by omega)]

omit [DecidableEq T] in
/-- The number of rounds is bounded by the distance of the expected place from the two ends of the search. -/
theorem rounds_le {old : List T} {ctx : Nat × Nat} {l : List T} {pos low limit : Int} {r : Option (Int × WillApply)}
    (h : Nearest old ctx l pos low limit r) : rounds pos low limit r ≤ (max 1 (max (pos - low + 1) (limit - pos))).toNat := by
  rcases r with _ | ⟨d, w⟩
  · exact Nat.le_refl _
  · have hb := h.1
    simp only [rounds]
    rcases hb with hb | hb <;> omega

end work

/-- The claim that the search takes no more rounds than there are lines in the file and in the clumps (and one). -/
def C91_statement : Prop :=
  ∀ (p : Profile) (c : DiffClump Str) (l : List Str) (n : Nat), c.WellFormed → l.length < sizeLimit →
    nearbyLimit p c ⟨l, 0⟩ none 0 false = .ok n →
    nearbyLoop p c ⟨l, 0⟩ n 0 false (l.length + weight [c] + 1) 1 false false ≠ .diverge

/-- There is no bound: for every number a patch of two lines, made for a place that far down, keeps the search in a
file of one line busy for more rounds. -/
theorem C91_unbounded (p : Profile) (N : Nat) (hN : N < 2 ^ 59) :
    ∃ (c : DiffClump Str) (l : List Str) (n : Nat), c.WellFormed ∧ l.length = 1 ∧ weight [c] = 2 ∧
      nearbyLimit p c ⟨l, 0⟩ none 0 false = .ok n ∧ nearbyLoop p c ⟨l, 0⟩ n 0 false N 1 false false = .diverge := by
  have hnone : ∀ pos, Fits [ln 'b'] (0, 0) [ln 'x'] pos none := by
    intro pos
    refine ⟨?_, fun k h1 h2 => by simp at h2⟩
    intro hst
    obtain ⟨h1, h2, h3⟩ := (standsAt_iff _ _ _).1 hst
    have : pos.toNat = 0 := by simp at h2; omega
    rw [this] at h3
    exact absurd h3 (by decide)
  have hw : (DiffClump.mk (0, 0) ⟨N, [ln 'b']⟩ ⟨N, [ln 'c']⟩).WellFormed := by
    refine ⟨by simp, by simp, ?_, ?_⟩ <;> simp only [List.length_cons, List.length_nil, sizeLimit] <;> omega
  have hu : ¬ (p = .debug ∧ Underflow [ln 'x'] (0, 0) (⟨N, [ln 'b']⟩ : Snippet Str) none 0) := by
    simp [Underflow, searchRoom, coreLen]
  obtain ⟨n, r, e1, e2, e3⟩ := C91_rounds p (DiffClump.mk (0, 0) ⟨N, [ln 'b']⟩ ⟨N, [ln 'c']⟩) none [ln 'x'] 0 0 false hw
    (by simp) (by simp [sizeLimit]) (by simp [sizeLimit]) (by simp [sizeLimit]) hu
  refine ⟨_, _, n, hw, rfl, rfl, e1, ?_⟩
  rw [e3]
  have hr := (C31_nearby p (DiffClump.mk (0, 0) ⟨N, [ln 'b']⟩ ⟨N, [ln 'c']⟩) none [ln 'x'] 0 0 false hw
    (by simp) (by simp [sizeLimit]) (by simp [sizeLimit]) (by simp [sizeLimit])).2 hu r
  have hr := hr.1 e2
  rcases r with _ | ⟨d, w⟩
  · rw [if_pos]
    simp only [rounds, DiffClump.beforeSide, Bool.false_eq_true, if_false]
    omega
  · exact absurd (fits_unique hr.2.1 (hnone _)) (by simp)

theorem C91_refuted : ¬ C91_statement := by
  intro h
  obtain ⟨c, l, n, hw, h1, h2, h3, h4⟩ := C91_unbounded .debug 4 (by decide)
  refine h .debug c l n hw (by rw [h1]; decide) h3 ?_
  rw [h1, h2]
  exact h4

/-- What holds: the search for a clump of a generated patch, in any file, takes no more rounds than twice the number of
lines of the file the patch was made for, the number of lines of the file to be patched, the size of the offset, and one. -/
theorem C91_generated_partial [DecidableEq T] [Item T] [LawfulItem T] (p q : Profile) (before after l : List T) (context : Nat)
    (hctx : context ≤ 255) (hb : before.length ≤ maxLines) (ha : after.length ≤ maxLines) (hl : l.length ≤ maxLines)
    (cs : List (DiffClump T)) (h : diffClumps p before after context = .ok cs) (c : DiffClump T) (hc : c ∈ cs)
    (next : Option (DiffClump T)) (hn : ∀ n ∈ next, n ∈ cs) (consumed : Nat) (hk : consumed ≤ l.length) (offset : Int)
    (ho : -(sizeLimit : Int) < offset ∧ offset < sizeLimit) (n : Nat)
    (hlim : nearbyLimit q c ⟨l, consumed⟩ next offset false = .ok n) :
    nearbyLoop q c ⟨l, consumed⟩ n offset false (2 * before.length + l.length + offset.natAbs + 1) 1 false false =
      willApplyNearby q c ⟨l, consumed⟩ next offset false := by
  obtain ⟨hd, -⟩ := diffClumps_full hctx h
  have hw := hd.wellFormed hb ha
  obtain ⟨skip, hd'⟩ := hd.diffed
  have hbd := hd'.bounds.2.2.2
  have hl' : l.length < sizeLimit := Nat.lt_of_le_of_lt hl (by decide)
  have hk' : consumed < sizeLimit := Nat.lt_of_le_of_lt hk hl'
  have hwn : ∀ n ∈ next, n.WellFormed := fun n h => hw n (hn n h)
  have hs := sideBefore q (hw c hc)
  have hu : ¬ (q = .debug ∧ Underflow l c.contextLengths c.before (next.map (·.beforeSide false)) offset) := by
    intro hu
    have := (nearbyLimit_spec q hs (hw c hc).ctxBefore (hw c hc).sizeBefore consumed rfl hwn ho hl').1 hu
    rw [this] at hlim
    cases hlim
  obtain ⟨n', r, e1, e2, e3⟩ := C91_rounds q c next l consumed offset false (hw c hc) hwn ho hl' hk' hu
  obtain rfl := Outcome.ok_inj (e1.symm.trans hlim)
  rw [e2, e3, if_neg]
  have hr := ((C31_nearby q c next l consumed offset false (hw c hc) hwn ho hl' hk').2 hu r).1 e2
  have hle := rounds_le hr
  have h1 := hbd c hc
  have hcc := (hw c hc).ctxBefore
  have h2 : searchLimit l c.contextLengths c.before (next.map (·.beforeSide false)) offset -
      (c.before.start + offset) ≤ 2 * before.length + l.length + offset.natAbs := by
    unfold searchLimit searchRoom
    cases next with
    | none => simp only [Option.map_none]; omega
    | some x =>
      have h3 := hbd x (hn x rfl)
      have : (x.beforeSide false).start = x.before.start := rfl
      simp only [Option.map_some]
      omega
  simp only [DiffClump.beforeSide, Bool.false_eq_true, if_false] at hle h2 ⊢
  omega

example : diffClumps .debug [ln 'a', ln 'b', ln 'c'] [ln 'a', ln 'b', ln 'x'] 1 =
    .ok [⟨(1, 0), ⟨1, [ln 'b', ln 'c']⟩, ⟨1, [ln 'b', ln 'x']⟩⟩] := by decide +kernel
example : nearbyLimit .debug (DiffClump.mk (1, 0) ⟨1, [ln 'b', ln 'c']⟩ ⟨1, [ln 'b', ln 'x']⟩) ⟨[ln 'z', ln 'z'], 0⟩ none 0 false =
    .ok 1 := by decide +kernel

end PwDiff
