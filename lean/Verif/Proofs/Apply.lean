import Verif.Proofs.ApplyText
import Verif.SpecPatching

/-! # Lemmas about writing patched text -/

namespace PwDiff

open ChangeBasics TextClump

variable {T C : Type}

/-- The reductions of a match as an option. -/
def WillApply.opt : WillApply → Option (Nat × Nat)
  | .cleanly => none
  | .withReductions r => some r

/-! ## Consumable sequences as emitted bytes -/

section emit

variable [DecidableEq T] [Item T] [LawfulItem T]

omit [DecidableEq T] [Item T] [LawfulItem T] in
theorem cut_eq_nil (l : List T) {a b : Nat} (h : b ≤ a) : cut l a b = [] := by
  simp [cut, show b - a = 0 by omega]

theorem writeIntoUpto_eq (p : Profile) (l : List T) (c n : Nat) (h : n ≤ l.length) :
    ConsumableSeq.writeIntoUpto p ⟨l, c⟩ n = WM.emit (bytesOf (cut l c n)) (.ok ⟨l, max c n⟩) := by
  unfold ConsumableSeq.writeIntoUpto
  have hd : debugAssert p (n ≤ l.length) = .ok () := by cases p <;> simp [debugAssert, h]
  simp only [hd, WM.liftM_eq, WM.lift_ok_bind]
  by_cases hc : c < n
  · rw [if_pos hc, writeInto_eq, if_pos ⟨by simp; omega, h⟩, show max c n = n by omega]
    exact WM.emit_bind_pure _ _ _
  · rw [if_neg hc, cut_eq_nil _ (by omega), show max c n = c by omega]
    exact WM.pure_eq_emit _

theorem writeRemainder_eq (p : Profile) (l : List T) (c : Nat) (h : c ≤ l.length) :
    ConsumableSeq.writeRemainder p ⟨l, c⟩ = WM.emit (bytesOf (cut l c l.length)) (.ok ⟨l, l.length⟩) := by
  unfold ConsumableSeq.writeRemainder
  rw [writeInto_eq, if_pos ⟨by simpa [ConsumableSeq.rangeFrom] using h, by simp [ConsumableSeq.rangeFrom]⟩]
  exact WM.emit_bind_pure _ _ _

theorem writeRemainder_panic (p : Profile) (l : List T) (c : Nat) (h : l.length < c) :
    ConsumableSeq.writeRemainder p ⟨l, c⟩ = WM.emit [] .panic := by
  unfold ConsumableSeq.writeRemainder
  rw [writeInto_eq, if_neg (by simp [ConsumableSeq.rangeFrom]; omega)]
  exact WM.emit_bind_panic _ _

omit [DecidableEq T] [LawfulItem T] in
theorem writeLines_eq (l : List T) : writeLines l = WM.emit (bytesOf l) (.ok ()) := by
  rw [← WM.writeAll_eq_emit]
  induction l with
  | nil => simp [writeLines, WM.writeAll_nil]
  | cons x l ih => simp [writeLines, ih, bytesOf, WM.writeAll_append]

variable [TextClump C T] {p : Profile} {c : C} {reverse : Bool} {s s' : Nat} {old new : List T}

omit [DecidableEq T] [LawfulItem T] in
theorem SideIs.writeNone (h : SideIs p c reverse s old) :
    beforeWriteInto p c none reverse = WM.emit (bytesOf old) (.ok ()) := by
  simp only [beforeWriteInto, h.whole, WM.liftM_eq, WM.lift_ok_bind, writeLines_eq]

omit [DecidableEq T] [LawfulItem T] in
/-- What `before_write_into` writes with reductions: the lines at *file* positions `s + r.1 .. s + len - r.2`. -/
theorem SideIs.writeSome (h : SideIs p c reverse s old) {r : Nat × Nat} (hr : r.1 + r.2 ≤ old.length) :
    beforeWriteInto p c (some r) reverse =
      if s ≤ r.2 then WM.emit (bytesOf (cut old (s + r.1) (s + old.length - r.2))) (.ok ()) else WM.emit [] .panic := by
  have hs := h.small
  have hrange : beforeRange p c (some r) reverse = .ok ⟨s + r.1, s + old.length - r.2⟩ := by
    unfold beforeRange
    simp only [h.start, h.fin]
    rw [uadd_ok (by simp only [wordSize, halfWord] at *; omega)]
    simp only [Outcome.ok_bind]
    rw [usub_ok (by omega)]
    rfl
  simp only [beforeWriteInto, hrange, WM.liftM_eq, WM.lift_ok_bind]
  by_cases hle : s ≤ r.2
  · rw [if_pos hle, h.part _ (by simp; omega) (by simp; omega)]
    simp only [WM.lift_ok_bind, writeLines_eq]
  · rw [if_neg hle, h.bad _ (by simp; omega)]
    rw [WM.lift_panic_bind, WM.lift_eq_emit]

/-- Applying a clump without reductions at a place inside the file. -/
theorem clumpApplyInto_none (h : SideIs p c reverse s old) (h' : SideIs p c (!reverse) s' new) (l : List T) (k : Nat)
    {offset : Int} {pos : Nat} (hpos : (s : Int) + offset = pos) (hlen : pos ≤ l.length) (hl : l.length < halfWord)
    (hk : k < halfWord) :
    clumpApplyInto p c ⟨l, k⟩ offset none reverse =
      WM.emit (bytesOf (cut l k pos) ++ bytesOf new) (.ok ⟨l, max k pos + old.length⟩) := by
  have hs := h.small
  unfold clumpApplyInto
  rw [h.adjustedStart (by omega) (by omega)]
  simp only [WM.liftM_eq, WM.lift_ok_bind, afterWriteInto, h'.writeNone, h.adjustedLength]
  rw [hpos, asUsize_of_nonneg (by omega), Int.toNat_natCast, writeIntoUpto_eq p l k pos hlen]
  apply WM.emit_bind_ok
  rw [WM.emit_bind_ok (bs' := []) (o := .ok ⟨l, max k pos + old.length⟩)]
  · simp
  · simp only [ConsumableSeq.advanceConsumedBy]
    rw [uadd_ok (by simp only [wordSize, halfWord] at *; omega)]
    exact WM.lift_eq_emit _

/-- Applying a clump with reductions at a place inside the file. -/
theorem clumpApplyInto_some (h : SideIs p c reverse s old) (h' : SideIs p c (!reverse) s' new) (l : List T) (k : Nat)
    {offset : Int} {pos : Nat} {r : Nat × Nat} (hr : r.1 + r.2 ≤ old.length) (hr' : r.1 + r.2 ≤ new.length)
    (h1 : -(halfWord : Int) ≤ s + offset) (hpos : (s : Int) + offset + r.1 = pos) (hlen : pos ≤ l.length)
    (hl : l.length < halfWord) (hk : k < halfWord) :
    clumpApplyInto p c ⟨l, k⟩ offset (some r) reverse =
      if s' ≤ r.2 then
        WM.emit (bytesOf (cut l k pos) ++ bytesOf (cut new (s' + r.1) (s' + new.length - r.2)))
          (.ok ⟨l, max k pos + (old.length - r.1 - r.2)⟩)
      else WM.emit (bytesOf (cut l k pos)) .panic := by
  have hs := h.small
  unfold clumpApplyInto
  rw [h.adjustedStartSome h1 (by omega)]
  simp only [WM.liftM_eq, WM.lift_ok_bind, afterWriteInto, h'.writeSome hr', h.adjustedLengthSome hr]
  rw [hpos, asUsize_of_nonneg (by omega), Int.toNat_natCast, writeIntoUpto_eq p l k pos hlen]
  split
  · apply WM.emit_bind_ok
    rw [WM.emit_bind_ok (bs' := []) (o := .ok ⟨l, max k pos + (old.length - r.1 - r.2)⟩)]
    · simp
    · simp only [ConsumableSeq.advanceConsumedBy]
      rw [uadd_ok (by simp only [wordSize, halfWord] at *; omega)]
      exact WM.lift_eq_emit _
  · rw [WM.emit_bind_ok (bs' := []) (o := .panic)]
    · simp
    · rw [WM.emit_bind_panic]

/-- Passing over an already applied clump. -/
theorem alreadyAppliedInto_none (h' : SideIs p c (!reverse) s' new) (l : List T) (k : Nat)
    {offset : Int} {pos : Nat} (hpos : (s' : Int) + offset = pos) (hlen : pos + new.length ≤ l.length)
    (hl : l.length < halfWord) :
    alreadyAppliedInto p c ⟨l, k⟩ offset none reverse =
      WM.emit (bytesOf (cut l k (pos + new.length))) (.ok ⟨l, max k (pos + new.length)⟩) := by
  have hs := h'.small
  unfold alreadyAppliedInto afterAdjustedStart afterAdjustedLength
  rw [h'.adjustedStart (by omega) (by omega)]
  simp only [WM.liftM_eq, WM.lift_ok_bind, h'.adjustedLength]
  rw [hpos, asUsize_of_nonneg (by omega), Int.toNat_natCast, uadd_ok (by simp only [wordSize, halfWord] at *; omega)]
  simp only [WM.lift_ok_bind]
  exact writeIntoUpto_eq p l k _ hlen

/-- Passing over an already applied clump that matched with reductions. -/
theorem alreadyAppliedInto_some (h' : SideIs p c (!reverse) s' new) (l : List T) (k : Nat)
    {offset : Int} {pos : Nat} {r : Nat × Nat} (hr : r.1 + r.2 ≤ new.length) (h1 : -(halfWord : Int) ≤ s' + offset)
    (hpos : (s' : Int) + offset + r.1 = pos) (hlen : pos + (new.length - r.1 - r.2) ≤ l.length)
    (hl : l.length < halfWord) :
    alreadyAppliedInto p c ⟨l, k⟩ offset (some r) reverse =
      WM.emit (bytesOf (cut l k (pos + (new.length - r.1 - r.2)))) (.ok ⟨l, max k (pos + (new.length - r.1 - r.2))⟩) := by
  have hs := h'.small
  unfold alreadyAppliedInto afterAdjustedStart afterAdjustedLength
  rw [h'.adjustedStartSome h1 (by omega)]
  simp only [WM.liftM_eq, WM.lift_ok_bind, h'.adjustedLengthSome hr]
  rw [hpos, asUsize_of_nonneg (by omega), Int.toNat_natCast, uadd_ok (by simp only [wordSize, halfWord] at *; omega)]
  simp only [WM.lift_ok_bind]
  exact writeIntoUpto_eq p l k _ hlen

omit [DecidableEq T] [LawfulItem T] in
theorem writeFailureDataInto_eq (h : SideIs p c reverse s old) (h' : SideIs p c (!reverse) s' new) :
    writeFailureDataInto p c reverse = WM.emit (conflict old new) (.ok ()) := by
  have e1 : markerLine '<' = markerBefore := by decide
  have e2 : markerLine '=' = markerMiddle := by decide
  have e3 : markerLine '>' = markerAfter := by decide
  unfold writeFailureDataInto conflict
  rw [e1, e2, e3]
  simp only [afterWriteInto, h.writeNone, h'.writeNone, WM.writeAll_eq_emit]
  simp only [List.append_assoc]
  apply WM.emit_bind_ok
  apply WM.emit_bind_ok
  apply WM.emit_bind_ok
  apply WM.emit_bind_ok
  rfl

end emit

/-! ## One step of the loop, by cases -/

section step

variable [DecidableEq T] [Item T] [TextClump C T] {p : Profile} {c : C} {reverse : Bool} {l : List T} {next : Option C}
  {pd : ConsumableSeq T} {offset : Int} {stats : Statistics}

theorem applyStep_clean (h : willApply p c l offset reverse = .ok (some .cleanly)) :
    applyStep p l reverse c next pd offset stats =
      (clumpApplyInto p c pd offset none reverse >>= fun pd =>
        pure (pd, offset, { stats with clean := stats.clean + 1 })) := by
  unfold applyStep
  rw [h]; rfl

theorem applyStep_reduced {r : Nat × Nat} (h : willApply p c l offset reverse = .ok (some (.withReductions r))) :
    applyStep p l reverse c next pd offset stats =
      (clumpApplyInto p c pd offset (some r) reverse >>= fun pd =>
        pure (pd, offset, { stats with fuzzy := stats.fuzzy + 1 })) := by
  unfold applyStep
  rw [h]; rfl

theorem applyStep_nearby {adj off' : Int} {w : WillApply} (h : willApply p c l offset reverse = .ok none)
    (hn : willApplyNearby p c pd next offset reverse = .ok (some (adj, w))) (ho : iadd p offset adj = .ok off') :
    applyStep p l reverse c next pd offset stats =
      (clumpApplyInto p c pd off' w.opt reverse >>= fun pd =>
        pure (pd, off', { stats with fuzzy := stats.fuzzy + 1 })) := by
  unfold applyStep
  rw [h]
  simp only [WM.liftM_eq, WM.lift_ok_bind, hn, ho]
  cases w <;> rfl

theorem applyStep_already (h : willApply p c l offset reverse = .ok none)
    (hn : willApplyNearby p c pd next offset reverse = .ok none)
    (ha : willApply p c l offset (!reverse) = .ok (some .cleanly)) :
    applyStep p l reverse c next pd offset stats =
      (alreadyAppliedInto p c pd offset none reverse >>= fun pd =>
        pure (pd, offset, { stats with alreadyApplied := stats.alreadyApplied + 1 })) := by
  unfold applyStep clumpIsAlreadyApplied
  rw [h]
  simp only [WM.liftM_eq, WM.lift_ok_bind]
  rw [hn]
  simp only [WM.lift_ok_bind]
  rw [ha]
  rfl

theorem applyStep_alreadyReduced {r : Nat × Nat} (h : willApply p c l offset reverse = .ok none)
    (hn : willApplyNearby p c pd next offset reverse = .ok none)
    (ha : willApply p c l offset (!reverse) = .ok (some (.withReductions r))) :
    applyStep p l reverse c next pd offset stats =
      (alreadyAppliedInto p c pd offset (some r) reverse >>= fun pd =>
        pure (pd, offset, { stats with alreadyAppliedFuzzy := stats.alreadyAppliedFuzzy + 1 })) := by
  unfold applyStep clumpIsAlreadyApplied
  rw [h]
  simp only [WM.liftM_eq, WM.lift_ok_bind]
  rw [hn]
  simp only [WM.lift_ok_bind]
  rw [ha]
  rfl

theorem applyStep_alreadyNearby {adj off' : Int} {w : WillApply} (h : willApply p c l offset reverse = .ok none)
    (hn : willApplyNearby p c pd next offset reverse = .ok none)
    (ha : willApply p c l offset (!reverse) = .ok none)
    (hb : willApplyNearby p c pd next offset (!reverse) = .ok (some (adj, w))) (ho : iadd p offset adj = .ok off') :
    applyStep p l reverse c next pd offset stats =
      (alreadyAppliedInto p c pd off' w.opt reverse >>= fun pd =>
        pure (pd, off', { stats with alreadyAppliedFuzzy := stats.alreadyAppliedFuzzy + 1 })) := by
  unfold applyStep clumpIsAlreadyApplied clumpIsAlreadyAppliedNearby
  rw [h]
  simp only [WM.liftM_eq, WM.lift_ok_bind]
  rw [hn]
  simp only [WM.lift_ok_bind]
  rw [ha]
  simp only [WM.lift_ok_bind, hb, ho]
  cases w <;> rfl

theorem applyStep_failed (h : willApply p c l offset reverse = .ok none)
    (hn : willApplyNearby p c pd next offset reverse = .ok none)
    (ha : willApply p c l offset (!reverse) = .ok none)
    (hb : willApplyNearby p c pd next offset (!reverse) = .ok none) :
    applyStep p l reverse c next pd offset stats =
      (writeFailureDataInto p c reverse >>= fun _ =>
        pure (pd, offset, { stats with failed := stats.failed + 1 })) := by
  unfold applyStep clumpIsAlreadyApplied clumpIsAlreadyAppliedNearby
  rw [h]
  simp only [WM.liftM_eq, WM.lift_ok_bind]
  rw [hn]
  simp only [WM.lift_ok_bind]
  rw [ha]
  simp only [WM.lift_ok_bind]
  rw [hb]
  rfl

end step

end PwDiff
