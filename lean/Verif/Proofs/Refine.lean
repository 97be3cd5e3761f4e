import Verif.Proofs.Swap

/-! # `apply_into` refines `Patching` -/

namespace PwDiff

open ChangeBasics TextClump

variable {T : Type}

theorem fits_some_bounds {old : List T} {ctx : Nat × Nat} {l : List T} {pos : Int} {w : WillApply}
    (hctx : ctx.1 + ctx.2 ≤ old.length) (h : Fits old ctx l pos (some w)) :
    w.redn.1 ≤ ctx.1 ∧ w.redn.2 ≤ ctx.2 ∧ 0 ≤ pos + w.redn.1 ∧
      pos + w.redn.1 + (old.length - w.redn.1 - w.redn.2 : Nat) ≤ l.length := by
  cases w with
  | cleanly =>
    have := (standsAt_iff _ _ _).1 h
    simp only [WillApply.redn]
    omega
  | withReductions r =>
    obtain ⟨-, k, h1, h2, rfl, h3, -⟩ := h
    have h4 := (standsAt_iff _ _ _).1 h3
    rw [length_trim _ _ (by simp only [redn]; omega)] at h4
    simp only [WillApply.redn]
    simp only [redn] at *
    omega

theorem sub_asIsize {p : Profile} {x : Int} {m : Nat} (hx : -(2 : Int) ^ 62 ≤ x) (hx' : x < (2 : Int) ^ 62) (hm : m < 2 ^ 62) :
    ((p = .debug ∧ 0 ≤ x ∧ x < m) → usub p (asUsize x) m = .panic) ∧
    (¬ (p = .debug ∧ 0 ≤ x ∧ x < m) → ∃ n, usub p (asUsize x) m = .ok n ∧ asIsize n = x - m) := by
  constructor
  · rintro ⟨rfl, h1, h2⟩
    rw [asUsize_of_nonneg h1]
    unfold usub
    rw [if_neg (by omega)]
  · intro h
    by_cases hneg : 0 ≤ x
    · rw [asUsize_of_nonneg hneg]
      by_cases hle : (m : Int) ≤ x
      · rw [usub_ok (by omega)]
        refine ⟨_, rfl, ?_⟩
        rw [asIsize_of_lt (by simp only [halfWord]; omega)]
        omega
      · cases p with
        | debug => exact absurd ⟨rfl, hneg, by omega⟩ h
        | release =>
          unfold usub
          rw [if_neg (by omega)]
          refine ⟨_, rfl, ?_⟩
          rw [Nat.mod_eq_of_lt (by simp only [wordSize]; omega)]
          unfold asIsize
          rw [if_neg (by simp only [wordSize, halfWord]; omega)]
          simp only [wordSize]; omega
    · unfold asUsize
      rw [if_neg hneg, usub_ok (by simp only [wordSize]; omega)]
      refine ⟨_, rfl, ?_⟩
      unfold asIsize
      rw [if_neg (by simp only [wordSize, halfWord]; omega)]
      simp only [wordSize]; omega

theorem sideBefore (p : Profile) {c : DiffClump T} (h : c.WellFormed) :
    SideIs p c false c.before.start c.before.items :=
  sideIs_diffClump p c false (Nat.lt_trans h.sizeBefore (by decide))

theorem sideAfter (p : Profile) {c : DiffClump T} (h : c.WellFormed) :
    SideIs p c true c.after.start c.after.items :=
  sideIs_diffClump p c true (Nat.lt_trans h.sizeAfter (by decide))

/-- The limit of the nearby search, for either side. -/
theorem nearbyLimit_spec (p : Profile) {c : DiffClump T} {rev : Bool} {side : Snippet T}
    (hs : SideIs p c rev side.start side.items) (hc : c.contextLengths.1 + c.contextLengths.2 ≤ side.items.length)
    (hsz : side.start + side.items.length < sizeLimit)
    {l : List T} (k : Nat) {next : Option (DiffClump T)} {nside : Option (Snippet T)}
    (hn : nside = next.map (fun n => n.beforeSide rev)) (hw : ∀ n ∈ next, n.WellFormed)
    {offset : Int} (ho : -(sizeLimit : Int) < offset ∧ offset < sizeLimit) (hl : l.length < sizeLimit) :
    ((p = .debug ∧ Underflow l c.contextLengths side nside offset) → nearbyLimit p c ⟨l, k⟩ next offset rev = .panic) ∧
    (¬ (p = .debug ∧ Underflow l c.contextLengths side nside offset) →
      ∃ n, nearbyLimit p c ⟨l, k⟩ next offset rev = .ok n ∧ asIsize n = searchLimit l c.contextLengths side nside offset) := by
  have hcl : contextLengths c = c.contextLengths := rfl
  have hlen : beforeAdjustedLength p c (some c.contextLengths) rev = .ok (coreLen c.contextLengths side) := by
    rw [hs.adjustedLengthSome hc]; rfl
  subst hn
  have hcore : coreLen c.contextLengths side < 2 ^ 62 := by
    simp only [sizeLimit, coreLen] at *; omega
  cases next with
  | none =>
    have := sub_asIsize (p := p) (x := l.length) (m := coreLen c.contextLengths side)
      (by omega) (by simp only [sizeLimit] at *; omega) hcore
    rw [asUsize_of_nonneg (by omega), Int.toNat_natCast] at this
    simp only [nearbyLimit, hcl, hlen, Outcome.ok_bind, Underflow, searchLimit, searchRoom, Option.map_none]
    exact this
  | some n =>
    have hwn := hw n rfl
    have hns : SideIs p n rev (n.beforeSide rev).start (n.beforeSide rev).items := by
      cases rev with
      | false => exact sideBefore p hwn
      | true => exact sideAfter p hwn
    have hnsz : (n.beforeSide rev).start + (n.beforeSide rev).items.length < sizeLimit := by
      cases rev with
      | false => exact hwn.sizeBefore
      | true => exact hwn.sizeAfter
    have := sub_asIsize (p := p) (x := (n.beforeSide rev).start + offset + c.contextLengths.1)
      (m := coreLen c.contextLengths side) (by simp only [sizeLimit] at *; omega) (by simp only [sizeLimit] at *; omega) hcore
    simp only [nearbyLimit, hcl, Underflow, searchLimit, searchRoom, Option.map_some]
    rw [hns.adjustedStartSome (by simp only [sizeLimit, halfWord] at *; omega) (by simp only [sizeLimit, halfWord] at *; omega)]
    simp only [Outcome.ok_bind, hlen]
    exact this

variable [DecidableEq T]

/-- The nearby search, for either side. -/
theorem nearby_searched (p : Profile) {c : DiffClump T} {rev : Bool} {side : Snippet T}
    (hs : SideIs p c rev side.start side.items) (hc : c.contextLengths.1 + c.contextLengths.2 ≤ side.items.length)
    (hsz : side.start + side.items.length < sizeLimit)
    {l : List T} {k : Nat} {next : Option (DiffClump T)} {nside : Option (Snippet T)}
    (hn : nside = next.map (fun n => n.beforeSide rev)) (hw : ∀ n ∈ next, n.WellFormed)
    {offset : Int} (ho : -(sizeLimit : Int) < offset ∧ offset < sizeLimit) (hl : l.length < sizeLimit) (hk : k < sizeLimit) :
    ((p = .debug ∧ Underflow l c.contextLengths side nside offset) → willApplyNearby p c ⟨l, k⟩ next offset rev = .panic) ∧
    (¬ (p = .debug ∧ Underflow l c.contextLengths side nside offset) →
      ∃ r, willApplyNearby p c ⟨l, k⟩ next offset rev = .ok r ∧ Searched l k offset c.contextLengths side nside r) := by
  obtain ⟨h1, h2⟩ := nearbyLimit_spec p hs hc hsz (l := l) k hn hw ho hl
  constructor
  · intro h
    unfold willApplyNearby
    rw [h1 h]; rfl
  · intro h
    obtain ⟨n, e1, e2⟩ := h2 h
    have hlim : asIsize n ≤ quarterWord := by
      rw [e2, hn]
      unfold searchLimit searchRoom
      cases next with
      | none => simp only [Option.map_none, sizeLimit, quarterWord] at *; omega
      | some m =>
        have hwn := hw m rfl
        have hnsz : (m.beforeSide rev).start + (m.beforeSide rev).items.length < sizeLimit := by
          cases rev with
          | false => exact hwn.sizeBefore
          | true => exact hwn.sizeAfter
        simp only [Option.map_some, sizeLimit, quarterWord] at *; omega
    obtain ⟨r, f1, f2⟩ := willApplyNearby_spec hs hc ⟨l, k⟩ next (notAfter := n) (offset := offset)
      (by simp only [sizeLimit, quarterWord] at *; omega) (by simp only [sizeLimit, eighthWord] at *; omega)
      (by simp only [sizeLimit, quarterWord] at *; omega) hlim e1
    refine ⟨r, f1, ?_⟩
    unfold Searched
    rw [← e2]
    exact f2

omit [DecidableEq T] in
/-- Offsets at which something fits are small. -/
theorem offset_bounds {side : Snippet T} {ctx : Nat × Nat} {l : List T} {off : Int} {w : WillApply}
    (hc : ctx.1 + ctx.2 ≤ side.items.length) (hsz : side.start + side.items.length < sizeLimit) (hl : l.length < sizeLimit)
    (h : Fits side.items ctx l (side.start + off) (some w)) : -(sizeLimit : Int) < off ∧ off < sizeLimit := by
  obtain ⟨h1, h2, h3, h4⟩ := fits_some_bounds hc h
  simp only [sizeLimit] at *
  omega

variable [Item T] [LawfulItem T]

/-- The rest of `apply_into` from a state of its loop. -/
def applyRest (p : Profile) (l : List T) (rev : Bool) (cs : List (DiffClump T)) (pd : ConsumableSeq T) (offset : Int)
    (st : Statistics) : WM Statistics := do
  let (pd, stats) ← applyLoop p l rev cs pd offset st
  let _ ← pd.writeRemainder p
  return stats

omit [LawfulItem T] in
theorem applyRest_cons (p : Profile) (l : List T) (rev : Bool) (c : DiffClump T) (cs : List (DiffClump T))
    (pd : ConsumableSeq T) (offset : Int) (st : Statistics) :
    applyRest p l rev (c :: cs) pd offset st =
      (applyStep p l rev c cs.head? pd offset st >>= fun x => applyRest p l rev cs x.1 x.2.1 x.2.2) := by
  simp only [applyRest, applyLoop, bind_assoc]

omit [LawfulItem T] in
/-- One step, for a decision. -/
theorem step_of_decides (p : Profile) {l : List T} {k : Nat} {offset : Int} {c : DiffClump T} {next : Option (DiffClump T)}
    (st : Statistics) (hc : c.WellFormed) (hw : ∀ n ∈ next, n.WellFormed)
    (ho : -(sizeLimit : Int) < offset ∧ offset < sizeLimit) (hl : l.length < sizeLimit) (hk : k < sizeLimit) :
    (Crashes p l k offset c next ∧ applyStep p l false c next ⟨l, k⟩ offset st = WM.emit [] .panic) ∨
    (∃ d w, Decides p l k offset c next (.apply d w) ∧
      applyStep p l false c next ⟨l, k⟩ offset st =
        (clumpApplyInto p c ⟨l, k⟩ (offset + d) w.opt false >>= fun pd =>
          pure (pd, offset + d, Decision.count st (.apply d w)))) ∨
    (∃ d w, Decides p l k offset c next (.already d w) ∧
      applyStep p l false c next ⟨l, k⟩ offset st =
        (alreadyAppliedInto p c ⟨l, k⟩ (offset + d) w.opt false >>= fun pd =>
          pure (pd, offset + d, Decision.count st (.already d w)))) ∨
    (Decides p l k offset c next .failed ∧
      applyStep p l false c next ⟨l, k⟩ offset st =
        (writeFailureDataInto p c false >>= fun _ => pure (⟨l, k⟩, offset, Decision.count st .failed))) := by
  have sb := sideBefore p hc
  have sa := sideAfter p hc
  have zb := hc.sizeBefore
  have za := hc.sizeAfter
  obtain ⟨r1, e1, f1⟩ := willApply_spec sb hc.ctxBefore l (offset := offset)
    (by simp only [sizeLimit, halfWord] at *; omega) (by simp only [sizeLimit, halfWord] at *; omega)
  cases r1 with
  | some w =>
    right; left
    refine ⟨0, w, .inl ⟨rfl, f1⟩, ?_⟩
    rw [Int.add_zero]
    cases w with
    | cleanly => rw [applyStep_clean e1]; rfl
    | withReductions r => rw [applyStep_reduced e1]; rfl
  | none =>
    obtain ⟨u1, u2⟩ := nearby_searched p sb hc.ctxBefore zb (l := l) (k := k) (next := next)
      (nside := next.map DiffClump.before) rfl hw ho hl hk
    by_cases hu : p = .debug ∧ Underflow l c.contextLengths c.before (next.map DiffClump.before) offset
    · left
      refine ⟨⟨hu.1, f1, .inl hu.2⟩, ?_⟩
      unfold applyStep
      rw [e1]
      simp only [WM.liftM_eq, WM.lift_ok_bind]
      rw [u1 hu]
      exact WM.lift_eq_emit _
    · obtain ⟨r2, e2, f2⟩ := u2 hu
      cases r2 with
      | some dw =>
        obtain ⟨d, w⟩ := dw
        right; left
        refine ⟨d, w, .inr ⟨f1, hu, f2⟩, ?_⟩
        have hb := offset_bounds hc.ctxBefore zb hl (off := offset + d) (w := w) (by
          rw [← Int.add_assoc]; exact f2.2.1)
        have hd : d ≠ 0 := by
          rcases f2.1 with h | h <;> omega
        rw [applyStep_nearby e1 e2 (iadd_ok (by simp only [sizeLimit, halfWord] at *; omega) (by simp only [sizeLimit, halfWord] at *; omega))]
        simp only [Decision.count, hd, false_and, if_false]
      | none =>
        obtain ⟨r3, e3, f3⟩ := willApply_spec sa hc.ctxAfter l (offset := offset)
          (by simp only [sizeLimit, halfWord] at *; omega) (by simp only [sizeLimit, halfWord] at *; omega)
        cases r3 with
        | some w =>
          right; right; left
          refine ⟨0, w, ⟨f1, hu, f2, .inl ⟨rfl, f3⟩⟩, ?_⟩
          rw [Int.add_zero]
          cases w with
          | cleanly => rw [applyStep_already e1 e2 e3]; rfl
          | withReductions r => rw [applyStep_alreadyReduced e1 e2 e3]; rfl
        | none =>
          obtain ⟨v1, v2⟩ := nearby_searched p sa hc.ctxAfter za (l := l) (k := k) (next := next)
            (nside := next.map DiffClump.after) rfl hw ho hl hk
          by_cases hv : p = .debug ∧ Underflow l c.contextLengths c.after (next.map DiffClump.after) offset
          · left
            refine ⟨⟨hv.1, f1, .inr ⟨fun h => hu ⟨hv.1, h⟩, f2, f3, hv.2⟩⟩, ?_⟩
            have e3' : willApply p c l offset (!false) = .ok none := e3
            have v1' : willApplyNearby p c ⟨l, k⟩ next offset (!false) = .panic := v1 hv
            unfold applyStep clumpIsAlreadyApplied clumpIsAlreadyAppliedNearby
            rw [e1]
            simp only [WM.liftM_eq, WM.lift_ok_bind]
            rw [e2]
            simp only [WM.lift_ok_bind]
            rw [e3']
            simp only [WM.lift_ok_bind]
            rw [v1']
            exact WM.lift_eq_emit _
          · obtain ⟨r4, e4, f4⟩ := v2 hv
            cases r4 with
            | some dw =>
              obtain ⟨d, w⟩ := dw
              right; right; left
              refine ⟨d, w, ⟨f1, hu, f2, .inr ⟨f3, hv, f4⟩⟩, ?_⟩
              have hb := offset_bounds hc.ctxAfter za hl (off := offset + d) (w := w) (by
                rw [← Int.add_assoc]; exact f4.2.1)
              have hd : d ≠ 0 := by
                rcases f4.1 with h | h <;> omega
              rw [applyStep_alreadyNearby e1 e2 e3 e4 (iadd_ok (by simp only [sizeLimit, halfWord] at *; omega) (by simp only [sizeLimit, halfWord] at *; omega))]
              simp only [Decision.count, hd, false_and, if_false]
            | none =>
              right; right; right
              refine ⟨⟨f1, hu, f2, f3, hv, f4⟩, ?_⟩
              rw [applyStep_failed e1 e2 e3 e4]
              rfl

omit [DecidableEq T] [Item T] [LawfulItem T] in
/-- The place of a decision fits. -/
theorem Decides.apply_fits {p : Profile} {l : List T} {k : Nat} {offset : Int} {c : DiffClump T} {next : Option (DiffClump T)}
    {d : Int} {w : WillApply} (h : Decides p l k offset c next (.apply d w)) :
    Fits c.before.items c.contextLengths l (c.before.start + (offset + d)) (some w) := by
  rcases h with ⟨rfl, h⟩ | ⟨-, -, h⟩
  · rw [Int.add_zero]; exact h
  · rw [← Int.add_assoc]; exact h.2.1

omit [DecidableEq T] [Item T] [LawfulItem T] in
theorem Decides.already_fits {p : Profile} {l : List T} {k : Nat} {offset : Int} {c : DiffClump T} {next : Option (DiffClump T)}
    {d : Int} {w : WillApply} (h : Decides p l k offset c next (.already d w)) :
    Fits c.after.items c.contextLengths l (c.after.start + (offset + d)) (some w) := by
  rcases h.2.2.2 with ⟨hd, g⟩ | ⟨-, -, g⟩
  · subst hd
    rw [Int.add_zero]; exact g
  · rw [← Int.add_assoc]; exact g.2.1

/-- Applying at a place that fits. -/
theorem applyInto_written (p : Profile) {c : DiffClump T} (hc : c.WellFormed) {l : List T} (hl : l.length < sizeLimit) {k : Nat}
    (hk : k < sizeLimit) {off : Int} {w : WillApply}
    (hf : Fits c.before.items c.contextLengths l (c.before.start + off) (some w)) :
    (∀ ls, writtenFor c.after w = some ls →
      clumpApplyInto p c ⟨l, k⟩ off w.opt false =
        WM.emit (bytesOf (cut l k (placeOf c.before off w)) ++ bytesOf ls)
          (.ok ⟨l, max k (placeOf c.before off w) + coveredBy c.before w⟩)) ∧
    (writtenFor c.after w = none →
      clumpApplyInto p c ⟨l, k⟩ off w.opt false = WM.emit (bytesOf (cut l k (placeOf c.before off w))) .panic) := by
  have sb := sideBefore p hc
  have sa : SideIs p c (!false) _ _ := sideAfter p hc
  have zb := hc.sizeBefore
  have za := hc.sizeAfter
  have hob := offset_bounds hc.ctxBefore zb hl hf
  obtain ⟨b1, b2, b3, b4⟩ := fits_some_bounds hc.ctxBefore hf
  have hcb := hc.ctxBefore
  have hca := hc.ctxAfter
  have hplace : (c.before.start : Int) + off + w.redn.1 = placeOf c.before off w := by
    unfold placeOf; omega
  cases w with
  | cleanly =>
    have hcov : coveredBy c.before .cleanly = c.before.items.length := rfl
    simp only [WillApply.redn] at *
    refine ⟨?_, by simp [writtenFor]⟩
    intro ls hls
    simp only [writtenFor, Option.some.injEq] at hls
    subst hls
    rw [hcov]
    exact clumpApplyInto_none sb sa l k (by rw [← hplace]; omega) (by omega) (by simp only [sizeLimit, halfWord] at *; omega)
      (by simp only [sizeLimit, halfWord] at *; omega)
  | withReductions r =>
    have hcov : coveredBy c.before (.withReductions r) = c.before.items.length - r.1 - r.2 := rfl
    simp only [WillApply.redn] at *
    have key := clumpApplyInto_some sb sa l k (offset := off) (pos := placeOf c.before off (.withReductions r)) (r := r)
      (by omega) (by omega) (by simp only [sizeLimit, halfWord] at *; omega) hplace (by omega)
      (by simp only [sizeLimit, halfWord] at *; omega) (by simp only [sizeLimit, halfWord] at *; omega)
    simp only [writtenFor, WillApply.opt]
    by_cases hle : c.after.start ≤ r.2
    · simp only [hle, if_true] at key ⊢
      rw [key, hcov]
      exact ⟨fun ls hls => by rw [← Option.some.inj hls], by simp⟩
    · simp only [hle, if_false] at key ⊢
      rw [key]
      exact ⟨by simp, fun _ => rfl⟩

theorem already_written (p : Profile) {c : DiffClump T} (hc : c.WellFormed) {l : List T} (hl : l.length < sizeLimit) {k : Nat}
    {off : Int} {w : WillApply}
    (hf : Fits c.after.items c.contextLengths l (c.after.start + off) (some w)) :
    alreadyAppliedInto p c ⟨l, k⟩ off w.opt false =
      WM.emit (bytesOf (cut l k (placeOf c.after off w + coveredBy c.after w)))
        (.ok ⟨l, max k (placeOf c.after off w + coveredBy c.after w)⟩) := by
  have sa : SideIs p c (!false) _ _ := sideAfter p hc
  have za := hc.sizeAfter
  have hob := offset_bounds hc.ctxAfter za hl hf
  obtain ⟨b1, b2, b3, b4⟩ := fits_some_bounds hc.ctxAfter hf
  have hca := hc.ctxAfter
  have hplace : (c.after.start : Int) + off + w.redn.1 = placeOf c.after off w := by
    unfold placeOf; omega
  cases w with
  | cleanly =>
    have hcov : coveredBy c.after .cleanly = c.after.items.length := rfl
    simp only [WillApply.redn] at *
    rw [hcov]
    exact alreadyAppliedInto_none sa l k (by rw [← hplace]; omega) (by omega) (by simp only [sizeLimit, halfWord] at *; omega)
  | withReductions r =>
    have hcov : coveredBy c.after (.withReductions r) = c.after.items.length - r.1 - r.2 := rfl
    simp only [WillApply.redn] at *
    rw [hcov]
    exact alreadyAppliedInto_some sa l k (by omega) (by simp only [sizeLimit, halfWord] at *; omega) hplace (by omega)
      (by simp only [sizeLimit, halfWord] at *; omega)

theorem applyRest_refines (p : Profile) {l : List T} (cs : List (DiffClump T)) (k : Nat) (offset : Int) (st : Statistics)
    (hw : ∀ c ∈ cs, c.WellFormed) (ho : -(sizeLimit : Int) < offset ∧ offset < sizeLimit)
    (hk : max k l.length + weight cs < sizeLimit) :
    ∃ out r, applyRest p l false cs ⟨l, k⟩ offset st = WM.emit out r ∧ Patching p l k offset st cs out r := by
  have hl : l.length < sizeLimit := by omega
  induction cs generalizing k offset st with
  | nil =>
    unfold applyRest applyLoop
    rw [pure_bind]
    simp only
    by_cases h : k ≤ l.length
    · refine ⟨_, _, ?_, .finish h⟩
      rw [writeRemainder_eq p l k h]
      exact WM.emit_bind_pure _ _ _
    · refine ⟨_, _, ?_, .overrun (by omega)⟩
      rw [writeRemainder_panic p l k (by omega)]
      exact WM.emit_bind_panic _ _
  | cons c cs ih =>
    have hc := hw c (by simp)
    have hws : ∀ c ∈ cs, c.WellFormed := fun d hd => hw d (List.mem_cons_of_mem _ hd)
    have hnext : ∀ n ∈ cs.head?, n.WellFormed := fun n hn => hws n (List.mem_of_mem_head? hn)
    have sb := sideBefore p hc
    have sa := sideAfter p hc
    have zb := hc.sizeBefore
    have za := hc.sizeAfter
    have hwt : weight (c :: cs) = c.before.items.length + c.after.items.length + weight cs := rfl
    rw [applyRest_cons]
    rcases step_of_decides p (l := l) (k := k) (next := cs.head?) st hc hnext ho hl (by omega) with
      ⟨h1, h2⟩ | ⟨d, w, h1, h2⟩ | ⟨d, w, h1, h2⟩ | ⟨h1, h2⟩
    · rw [h2]
      exact ⟨_, _, WM.emit_bind_panic _ _, .crash h1⟩
    · rw [h2]
      have hf := h1.apply_fits
      have hob := offset_bounds hc.ctxBefore zb hl hf
      obtain ⟨b1, b2, b3, b4⟩ := fits_some_bounds hc.ctxBefore hf
      have hcb := hc.ctxBefore
      have hca := hc.ctxAfter
      have hplace : (placeOf c.before (offset + d) w : Int) = c.before.start + (offset + d) + w.redn.1 := by
        unfold placeOf; omega
      have hcov : coveredBy c.before w = c.before.items.length - w.redn.1 - w.redn.2 := rfl
      obtain ⟨out, r, i1, i2⟩ := ih (max k (placeOf c.before (offset + d) w) + coveredBy c.before w) (offset + d)
        (Decision.count st (.apply d w)) hws hob (by rw [hwt] at hk; omega)
      cases hwr : writtenFor c.after w with
      | some ls =>
        refine ⟨_, _, ?_, .apply h1 hwr i2⟩
        rw [(applyInto_written p hc hl (by omega) hf).1 ls hwr, WM.emit_bind_pure]
        exact WM.emit_bind_ok _ _ _ i1
      | none =>
        refine ⟨_, _, ?_, .applyPanic h1 hwr⟩
        rw [(applyInto_written p hc hl (by omega) hf).2 hwr, WM.emit_bind_panic, WM.emit_bind_panic]
    · rw [h2]
      have hf := h1.already_fits
      have hob := offset_bounds hc.ctxAfter za hl hf
      obtain ⟨b1, b2, b3, b4⟩ := fits_some_bounds hc.ctxAfter hf
      have hca := hc.ctxAfter
      have hplace : (placeOf c.after (offset + d) w : Int) = c.after.start + (offset + d) + w.redn.1 := by
        unfold placeOf; omega
      have hcov : coveredBy c.after w = c.after.items.length - w.redn.1 - w.redn.2 := rfl
      obtain ⟨out, r, i1, i2⟩ := ih (max k (placeOf c.after (offset + d) w + coveredBy c.after w)) (offset + d)
        (Decision.count st (.already d w)) hws hob (by rw [hwt] at hk; omega)
      refine ⟨_, _, ?_, .already h1 i2⟩
      rw [already_written p hc hl hf, WM.emit_bind_pure]
      exact WM.emit_bind_ok _ _ _ i1
    · rw [h2]
      obtain ⟨out, r, i1, i2⟩ := ih k offset (Decision.count st .failed) hws ho (by rw [hwt] at hk; omega)
      refine ⟨_, _, ?_, .failed h1 i2⟩
      rw [writeFailureDataInto_eq sb sa, WM.emit_bind_pure]
      exact WM.emit_bind_ok _ _ _ i1

/-- `apply_into` follows the description. -/
theorem applyInto_refines (p : Profile) (l : List T) (cs : List (DiffClump T))
    (hw : ∀ c ∈ cs, c.WellFormed) (hsz : l.length + weight cs < sizeLimit) :
    ∃ out r, applyInto p cs l false = WM.emit out r ∧ Patching p l 0 0 {} cs out r :=
  applyRest_refines p cs 0 0 {} hw (by simp only [sizeLimit]; omega) (by omega)

/-! ## The description is deterministic -/

section unique

omit [DecidableEq T] [Item T] [LawfulItem T]

theorem nearest_unique {old : List T} {ctx : Nat × Nat} {l : List T} {pos low limit : Int} {r r' : Option (Int × WillApply)}
    (h : Nearest old ctx l pos low limit r) (h' : Nearest old ctx l pos low limit r') : r = r' := by
  have no : ∀ {q : Int} {w : WillApply}, Fits old ctx l q none → Fits old ctx l q (some w) → False := by
    intro q w h1 h2
    have := fits_unique h1 h2
    simp at this
  rcases r with _ | ⟨d, w⟩ <;> rcases r' with _ | ⟨d', w'⟩
  · rfl
  · exact (no (h d' h'.1) h'.2.1).elim
  · exact (no (h' d h.1) h.2.1).elim
  · obtain ⟨b1, f1, m1, n1⟩ := h
    obtain ⟨b2, f2, m2, n2⟩ := h'
    rcases Nat.lt_trichotomy d.natAbs d'.natAbs with hlt | heq | hlt
    · exact (no (m2 d b1 hlt) f1).elim
    · by_cases hd : d = d'
      · subst hd
        have := fits_unique f1 f2
        simp only [Option.some.injEq] at this
        rw [this]
      · have hd' : d = -d' := by omega
        by_cases hpos : 0 < d
        · exact (no (n1 hpos (by rw [show -d = d' by omega]; exact b2)) (by rw [show -d = d' by omega]; exact f2)).elim
        · have : 0 < d' := by rcases b1 with h | h <;> omega
          exact (no (n2 this (by rw [show -d' = d by omega]; exact b1)) (by rw [show -d' = d by omega]; exact f1)).elim
    · exact (no (m1 d' b2 hlt) f2).elim

variable {p : Profile} {l : List T} {k : Nat} {offset : Int} {c : DiffClump T} {next : Option (DiffClump T)}

theorem decides_unique {x y : Decision} (h : Decides p l k offset c next x) (h' : Decides p l k offset c next y) : x = y := by
  have nof : ∀ {o : Int} {side : Snippet T} {w : WillApply}, FitsHere l o c.contextLengths side none →
      FitsHere l o c.contextLengths side (some w) → False := by
    intro o side w h1 h2
    have := fits_unique h1 h2
    simp at this
  have nos : ∀ {side : Snippet T} {n : Option (Snippet T)} {r r' : Option (Int × WillApply)},
      Searched l k offset c.contextLengths side n r → Searched l k offset c.contextLengths side n r' → r = r' :=
    fun h1 h2 => nearest_unique h1 h2
  have nosn : ∀ {side : Snippet T} {n : Option (Snippet T)} {x : Int × WillApply},
      Searched l k offset c.contextLengths side n none → Searched l k offset c.contextLengths side n (some x) → False := by
    intro side n x h1 h2
    have := nos h1 h2
    simp at this
  have applyNot : ∀ {d w}, Decides p l k offset c next (.apply d w) →
      FitsHere l offset c.contextLengths c.before none →
      Searched l k offset c.contextLengths c.before (next.map DiffClump.before) none → False := by
    rintro d w (⟨-, h⟩ | ⟨-, -, h⟩) h1 h2
    · exact nof h1 h
    · exact nosn h2 h
  cases x with
  | apply d w =>
    cases y with
    | apply d' w' =>
      rcases h with ⟨rfl, h⟩ | ⟨h1, -, h2⟩ <;> rcases h' with ⟨rfl, h'⟩ | ⟨h1', -, h2'⟩
      · have := fits_unique h h'
        simp only [Option.some.injEq] at this
        rw [this]
      · exact (nof h1' h).elim
      · exact (nof h1 h').elim
      · have := nos h2 h2'
        simp only [Option.some.injEq, Prod.mk.injEq] at this
        rw [this.1, this.2]
    | already d' w' => exact (applyNot h h'.1 h'.2.2.1).elim
    | failed => exact (applyNot h h'.1 h'.2.2.1).elim
  | already d w =>
    cases y with
    | apply d' w' => exact (applyNot h' h.1 h.2.2.1).elim
    | already d' w' =>
      rcases h.2.2.2 with ⟨rfl, g⟩ | ⟨h1, -, h2⟩ <;> rcases h'.2.2.2 with ⟨rfl, g'⟩ | ⟨h1', -, h2'⟩
      · have := fits_unique g g'
        simp only [Option.some.injEq] at this
        rw [this]
      · exact (nof h1' g).elim
      · exact (nof h1 g').elim
      · have := nos h2 h2'
        simp only [Option.some.injEq, Prod.mk.injEq] at this
        rw [this.1, this.2]
    | failed =>
      rcases h.2.2.2 with ⟨rfl, g⟩ | ⟨h1, -, h2⟩
      · exact (nof h'.2.2.2.1 g).elim
      · exact (nosn h'.2.2.2.2.2 h2).elim
  | failed =>
    cases y with
    | apply d' w' => exact (applyNot h' h.1 h.2.2.1).elim
    | already d' w' =>
      rcases h'.2.2.2 with ⟨rfl, g⟩ | ⟨h1, -, h2⟩
      · exact (nof h.2.2.2.1 g).elim
      · exact (nosn h.2.2.2.2.2 h2).elim
    | failed => rfl

theorem crashes_not_decides {x : Decision} (h : Crashes p l k offset c next) (h' : Decides p l k offset c next x) : False := by
  have nof : ∀ {o : Int} {side : Snippet T} {w : WillApply}, FitsHere l o c.contextLengths side none →
      FitsHere l o c.contextLengths side (some w) → False := by
    intro o side w h1 h2
    have := fits_unique h1 h2
    simp at this
  have nosn : ∀ {side : Snippet T} {n : Option (Snippet T)} {x : Int × WillApply},
      Searched l k offset c.contextLengths side n none → Searched l k offset c.contextLengths side n (some x) → False := by
    intro side n x h1 h2
    have := nearest_unique h1 h2
    simp at this
  obtain ⟨hp, hf, h⟩ := h
  cases x with
  | apply d w =>
    rcases h' with ⟨-, g⟩ | ⟨-, g1, g2⟩
    · exact nof hf g
    · rcases h with h | ⟨-, h, -⟩
      · exact g1 ⟨hp, h⟩
      · exact nosn h g2
  | already d w =>
    obtain ⟨-, g1, -, g2⟩ := h'
    rcases h with h | ⟨-, -, h1, h2⟩
    · exact g1 ⟨hp, h⟩
    · rcases g2 with ⟨-, g2⟩ | ⟨-, g2, -⟩
      · exact nof h1 g2
      · exact g2 ⟨hp, h2⟩
  | failed =>
    obtain ⟨-, g1, -, -, g2, -⟩ := h'
    rcases h with h | ⟨-, -, -, h⟩
    · exact g1 ⟨hp, h⟩
    · exact g2 ⟨hp, h⟩

theorem Patching.unique [Item T] {st : Statistics} {cs : List (DiffClump T)} {out out' : List UInt8} {r r' : Outcome Statistics}
    (h : Patching p l k offset st cs out r) (h' : Patching p l k offset st cs out' r') : out = out' ∧ r = r' := by
  induction h generalizing out' r' with
  | finish hk =>
    cases h' with
    | finish _ => exact ⟨rfl, rfl⟩
    | overrun hk' => omega
  | overrun hk =>
    cases h' with
    | finish _ => omega
    | overrun hk' => exact ⟨rfl, rfl⟩
  | crash hc =>
    cases h' with
    | crash _ => exact ⟨rfl, rfl⟩
    | apply hd _ _ => exact (crashes_not_decides hc hd).elim
    | applyPanic hd _ => exact (crashes_not_decides hc hd).elim
    | already hd _ => exact (crashes_not_decides hc hd).elim
    | failed hd _ => exact (crashes_not_decides hc hd).elim
  | apply hd hw _ ih =>
    cases h' with
    | crash hc => exact (crashes_not_decides hc hd).elim
    | apply hd' hw' hp' =>
      obtain ⟨rfl, rfl⟩ := Decision.apply.inj (decides_unique hd hd')
      obtain rfl := Option.some.inj (hw.symm.trans hw')
      obtain ⟨rfl, rfl⟩ := ih hp'
      exact ⟨rfl, rfl⟩
    | applyPanic hd' hw' =>
      obtain ⟨rfl, rfl⟩ := Decision.apply.inj (decides_unique hd hd')
      rw [hw] at hw'; simp at hw'
    | already hd' _ => exact Decision.noConfusion (decides_unique hd hd')
    | failed hd' _ => exact Decision.noConfusion (decides_unique hd hd')
  | applyPanic hd hw =>
    cases h' with
    | crash hc => exact (crashes_not_decides hc hd).elim
    | apply hd' hw' hp' =>
      obtain ⟨rfl, rfl⟩ := Decision.apply.inj (decides_unique hd hd')
      rw [hw] at hw'; simp at hw'
    | applyPanic hd' hw' =>
      obtain ⟨rfl, rfl⟩ := Decision.apply.inj (decides_unique hd hd')
      exact ⟨rfl, rfl⟩
    | already hd' _ => exact Decision.noConfusion (decides_unique hd hd')
    | failed hd' _ => exact Decision.noConfusion (decides_unique hd hd')
  | already hd _ ih =>
    cases h' with
    | crash hc => exact (crashes_not_decides hc hd).elim
    | apply hd' _ _ => exact Decision.noConfusion (decides_unique hd hd')
    | applyPanic hd' _ => exact Decision.noConfusion (decides_unique hd hd')
    | already hd' hp' =>
      obtain ⟨rfl, rfl⟩ := Decision.already.inj (decides_unique hd hd')
      obtain ⟨rfl, rfl⟩ := ih hp'
      exact ⟨rfl, rfl⟩
    | failed hd' _ => exact Decision.noConfusion (decides_unique hd hd')
  | failed hd _ ih =>
    cases h' with
    | crash hc => exact (crashes_not_decides hc hd).elim
    | apply hd' _ _ => exact Decision.noConfusion (decides_unique hd hd')
    | applyPanic hd' _ => exact Decision.noConfusion (decides_unique hd hd')
    | already hd' _ => exact Decision.noConfusion (decides_unique hd hd')
    | failed hd' hp' =>
      obtain ⟨rfl, rfl⟩ := ih hp'
      exact ⟨rfl, rfl⟩

end unique

theorem applyInto_eq_of_patching (p : Profile) (l : List T) (cs : List (DiffClump T)) (hw : ∀ c ∈ cs, c.WellFormed)
    (hsz : l.length + weight cs < sizeLimit) {out : List UInt8} {r : Outcome Statistics} (h : Patching p l 0 0 {} cs out r) :
    applyInto p cs l false = WM.emit out r := by
  obtain ⟨out', r', h1, h2⟩ := applyInto_refines p l cs hw hsz
  obtain ⟨rfl, rfl⟩ := h.unique h2
  exact h1

end PwDiff
