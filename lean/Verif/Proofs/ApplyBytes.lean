import Verif.SpecBytes
import Verif.Proofs.Patched
import Verif.Proofs.Writer
import Verif.Proofs.Stretch
import Verif.Props.Sequence

/-! # Applying byte patches -/

namespace PwDiff

theorem hasSubsequenceAt_spec (p : Profile) (l : List UInt8) (s : Snippet UInt8) :
    ∃ b, hasSubsequenceAt p l s.items s.start = .ok b ∧ (b = true ↔ FoundIn l s) := by
  obtain ⟨b, h1, h2⟩ := C05_has_subsequence_at p l s.items s.start
  refine ⟨b, h1, h2.trans ?_⟩
  unfold FoundIn
  rw [standsAt_nat]
  constructor
  · rintro ⟨g1, g2, g3⟩
    refine ⟨g1, g2, ?_⟩
    apply List.ext_getElem?
    intro t
    rw [cut_getElem?]
    by_cases ht : t < s.items.length
    · rw [if_pos (by omega), g3 t ht]
    · rw [if_neg (by omega), List.getElem?_eq_none (by omega)]
  · rintro ⟨g1, g2, g3⟩
    refine ⟨g1, g2, ?_⟩
    intro t ht
    have := congrArg (fun x => x[t]?) g3
    simp only [cut_getElem?] at this
    rw [if_pos (by omega)] at this
    exact this

theorem FoundIn.le {l : List UInt8} {s : Snippet UInt8} (h : FoundIn l s) : s.start + s.items.length ≤ l.length :=
  ((standsAt_nat _ _ _).1 h.2).1

theorem bytesOf_uint8 (l : List UInt8) : bytesOf l = l := flatMap_singleton_id l

theorem byteClumpApplyInto_eq (p : Profile) (c : DiffClump UInt8) (l : List UInt8) (k : Nat) (h : c.before.start ≤ l.length)
    (hs : max k c.before.start + c.before.items.length < wordSize) :
    byteClumpApplyInto p c ⟨l, k⟩ false = WM.emit (cut l k c.before.start ++ c.after.items)
      (.ok ⟨l, max k c.before.start + c.before.items.length⟩) := by
  unfold byteClumpApplyInto
  have e1 : c.beforeSide false = c.before := rfl
  have e2 : c.afterSide false = c.after := rfl
  rw [e1, e2, writeIntoUpto_eq p l k c.before.start h, bytesOf_uint8]
  refine WM.emit_bind_ok _ _ _ ?_
  unfold Snippet.writeInto
  have hw : (Item.writeItems c.after.items : WM Unit) = WM.emit c.after.items (.ok ()) := WM.writeAll_eq_emit _
  simp only [hw]
  have := WM.emit_bind_ok c.after.items () (fun _ => do
    let pd ← (ConsumableSeq.advanceConsumedBy p ⟨l, max k c.before.start⟩ c.before.len : Outcome (ConsumableSeq UInt8))
    pure pd) (bs' := []) (o := .ok ⟨l, max k c.before.start + c.before.items.length⟩) (by
      unfold ConsumableSeq.advanceConsumedBy Snippet.len
      rw [uadd_ok hs]
      exact WM.lift_eq_emit _)
  rw [List.append_nil] at this
  exact this

theorem byteAlreadyAppliedInto_eq (p : Profile) (c : DiffClump UInt8) (l : List UInt8) (k : Nat)
    (h : c.after.start + c.after.items.length ≤ l.length) (hl : l.length < wordSize) :
    byteAlreadyAppliedInto p c ⟨l, k⟩ false = WM.emit (cut l k (c.after.start + c.after.items.length))
      (.ok ⟨l, max k (c.after.start + c.after.items.length)⟩) := by
  unfold byteAlreadyAppliedInto Snippet.len
  have e2 : c.afterSide false = c.after := rfl
  rw [e2, uadd_ok (by omega)]
  have := writeIntoUpto_eq p l k _ h
  rw [bytesOf_uint8] at this
  exact this

theorem byteApplyLoop_refines (p : Profile) (l : List UInt8) (cs : List (DiffClump UInt8)) (k : Nat)
    (hs : max k l.length + weight cs < wordSize) :
    ∃ out r, (byteApplyLoop p l false cs ⟨l, k⟩ >>= fun pd => (pd.writeRemainder p >>= fun _ => pure ())) = WM.emit out r ∧
      BytePatching l k cs out r := by
  induction cs generalizing k with
  | nil =>
    unfold byteApplyLoop
    simp only [pure_bind]
    by_cases hk : k ≤ l.length
    · refine ⟨l.drop k, .ok (), ?_, .finish hk⟩
      rw [writeRemainder_eq p l k hk, cut_length_eq, bytesOf_uint8]
      exact WM.emit_bind_pure _ _ _
    · refine ⟨[], .panic, ?_, .overrun (by omega)⟩
      rw [writeRemainder_panic p l k (by omega)]
      exact WM.emit_bind_panic _ _
  | cons c cs ih =>
    unfold byteApplyLoop
    simp only [weight] at hs
    obtain ⟨b, hb1, hb2⟩ := hasSubsequenceAt_spec p l c.before
    obtain ⟨a, ha1, ha2⟩ := hasSubsequenceAt_spec p l c.after
    have eb : byteWillApply p c l false = .ok b := hb1
    have ea : byteIsAlreadyApplied p c l false = .ok a := ha1
    have step : byteApplyStep p l false c ⟨l, k⟩ = if b = true then byteClumpApplyInto p c ⟨l, k⟩ false
        else if a = true then byteAlreadyAppliedInto p c ⟨l, k⟩ false else pure ⟨l, k⟩ := by
      unfold byteApplyStep
      rw [eb, ea]
      cases b <;> cases a <;> rfl
    rw [step]
    by_cases hb : b = true
    · have hf := hb2.1 hb
      obtain ⟨o, r, i1, i2⟩ := ih (max k c.before.start + c.before.items.length) (by have := hf.le; omega)
      refine ⟨cut l k c.before.start ++ c.after.items ++ o, r, ?_, .apply hf i2⟩
      rw [if_pos hb, byteClumpApplyInto_eq p c l k (by have := hf.le; omega) (by have := hf.le; omega), bind_assoc]
      exact WM.emit_bind_ok _ _ _ i1
    · have hnb : ¬ FoundIn l c.before := fun h => hb (hb2.2 h)
      rw [if_neg hb]
      by_cases ha : a = true
      · have hf := ha2.1 ha
        obtain ⟨o, r, i1, i2⟩ := ih (max k (c.after.start + c.after.items.length)) (by have := hf.le; omega)
        refine ⟨cut l k (c.after.start + c.after.items.length) ++ o, r, ?_, .already hnb hf i2⟩
        rw [if_pos ha, byteAlreadyAppliedInto_eq p c l k hf.le (by omega), bind_assoc]
        exact WM.emit_bind_ok _ _ _ i1
      · have hna : ¬ FoundIn l c.after := fun h => ha (ha2.2 h)
        obtain ⟨o, r, i1, i2⟩ := ih k (by omega)
        refine ⟨o, r, ?_, .skip hnb hna i2⟩
        rw [if_neg ha, pure_bind]
        exact i1

theorem byteApplyInto_refines (p : Profile) (l : List UInt8) (cs : List (DiffClump UInt8)) (hs : l.length + weight cs < wordSize) :
    ∃ out r, byteApplyInto p cs l false = WM.emit out r ∧ BytePatching l 0 cs out r := by
  obtain ⟨o, r, h1, h2⟩ := byteApplyLoop_refines p l cs 0 (by omega)
  exact ⟨o, r, h1, h2⟩

theorem BytePatching.unique {l : List UInt8} {k : Nat} {cs : List (DiffClump UInt8)} {out out' : List UInt8} {r r' : Outcome Unit}
    (h : BytePatching l k cs out r) (h' : BytePatching l k cs out' r') : out = out' ∧ r = r' := by
  induction h generalizing out' r' with
  | finish hk =>
    cases h' with
    | finish => exact ⟨rfl, rfl⟩
    | overrun => omega
  | overrun hk =>
    cases h' with
    | finish => omega
    | overrun => exact ⟨rfl, rfl⟩
  | apply h1 _ ih =>
    cases h' with
    | apply _ g =>
      obtain ⟨rfl, rfl⟩ := ih g
      exact ⟨rfl, rfl⟩
    | already g => exact absurd h1 g
    | skip g => exact absurd h1 g
  | already h1 h2 _ ih =>
    cases h' with
    | apply g => exact absurd g h1
    | already _ _ g =>
      obtain ⟨rfl, rfl⟩ := ih g
      exact ⟨rfl, rfl⟩
    | skip _ g => exact absurd h2 g
  | skip h1 h2 _ ih =>
    cases h' with
    | apply g => exact absurd g h1
    | already _ g => exact absurd g h2
    | skip _ _ g => exact ih g

/-! ## Reverse -/

theorem byteStep_swap (p : Profile) (rev : Bool) (l : List UInt8) (c : DiffClump UInt8) (pd : ConsumableSeq UInt8) :
    byteApplyStep p l rev c.swap pd = byteApplyStep p l (!rev) c pd := by cases rev <;> rfl

theorem byteLoop_swap (p : Profile) (rev : Bool) (l : List UInt8) (cs : List (DiffClump UInt8)) (pd : ConsumableSeq UInt8) :
    byteApplyLoop p l rev (cs.map DiffClump.swap) pd = byteApplyLoop p l (!rev) cs pd := by
  induction cs generalizing pd with
  | nil => rfl
  | cons c cs ih =>
    simp only [List.map_cons, byteApplyLoop, byteStep_swap]
    congr 1
    funext x
    exact ih x

theorem byteApply_swap (p : Profile) (rev : Bool) (l : List UInt8) (cs : List (DiffClump UInt8)) :
    byteApplyInto p (cs.map DiffClump.swap) l rev = byteApplyInto p cs l (!rev) := by
  unfold byteApplyInto
  rw [byteLoop_swap]

theorem byteAlready_swap (p : Profile) (rev : Bool) (l : List UInt8) (cs : List (DiffClump UInt8)) :
    byteAlreadyApplied p l rev (cs.map DiffClump.swap) = byteAlreadyApplied p l (!rev) cs := by
  induction cs with
  | nil => rfl
  | cons c cs ih =>
    simp only [List.map_cons, byteAlreadyApplied, ih]
    cases rev <;> rfl

/-! ## Writers -/

theorem norm_byteApplyInto (p : Profile) (cs : List (DiffClump UInt8)) (l : List UInt8) (rev : Bool) :
    WM.Norm (byteApplyInto p cs l rev) := by
  have step : ∀ c pd, WM.Norm (byteApplyStep p l rev c pd) := by
    intro c pd
    unfold byteApplyStep
    refine WM.Norm.bind (WM.norm_lift _) fun b => ?_
    split
    · unfold byteClumpApplyInto Snippet.writeInto
      exact WM.Norm.bind (norm_writeIntoUpto _ _ _) fun _ => WM.Norm.bind (norm_writeItems _) fun _ =>
        WM.norm_lift _
    · refine WM.Norm.bind (WM.norm_lift _) fun a => ?_
      split
      · unfold byteAlreadyAppliedInto
        exact WM.Norm.bind (WM.norm_lift _) fun _ => norm_writeIntoUpto _ _ _
      · exact WM.norm_pure _
  have loop : ∀ cs pd, WM.Norm (byteApplyLoop p l rev cs pd) := by
    intro cs
    induction cs with
    | nil => intro pd; exact WM.norm_pure _
    | cons c cs ih => intro pd; exact WM.Norm.bind (step c pd) fun _ => ih _
  unfold byteApplyInto
  exact WM.Norm.bind (loop _ _) fun _ => WM.Norm.bind (norm_writeRemainder _ _) fun _ => WM.norm_pure _

/-! ## Clean application -/

theorem bytePatching_clean (l : List UInt8) (k : Nat) (cs : List (DiffClump UInt8)) (h : StandInOrder l 0 k cs)
    (hin : ∀ c ∈ cs, c.before.start < l.length) : BytePatching l k cs (patchedFrom l 0 k cs) (.ok ()) := by
  induction cs generalizing k with
  | nil => exact .finish h
  | cons c cs ih =>
    obtain ⟨h1, h2, h3⟩ := h
    rw [Int.add_zero] at h1 h2
    have e : (c.before.start + 0 : Int).toNat = c.before.start := by omega
    rw [e] at h3
    have i := ih _ h3 (fun c hc => hin c (by simp [hc]))
    simp only [patchedFrom]
    rw [e]
    exact .apply ⟨hin c (by simp), h2⟩ (by
      rw [show max k c.before.start = c.before.start by omega]
      exact i)

/-- Nothing is found: the file is copied. -/
theorem bytePatching_skip (l : List UInt8) (k : Nat) (hk : k ≤ l.length) (cs : List (DiffClump UInt8))
    (h : ∀ c ∈ cs, ¬ FoundIn l c.before ∧ ¬ FoundIn l c.after) : BytePatching l k cs (l.drop k) (.ok ()) := by
  induction cs with
  | nil => exact .finish hk
  | cons c cs ih => exact .skip (h c (by simp)).1 (h c (by simp)).2 (ih fun c hc => h c (by simp [hc]))

theorem byteAlreadyApplied_spec (p : Profile) (l : List UInt8) (cs : List (DiffClump UInt8)) :
    ∃ b, byteAlreadyApplied p l false cs = .ok b ∧ (b = true ↔ ∀ c ∈ cs, FoundIn l c.after) := by
  induction cs with
  | nil => exact ⟨true, rfl, by simp⟩
  | cons c cs ih =>
    obtain ⟨a, ha1, ha2⟩ := hasSubsequenceAt_spec p l c.after
    obtain ⟨b, hb1, hb2⟩ := ih
    have ea : byteIsAlreadyApplied p c l false = .ok a := ha1
    unfold byteAlreadyApplied
    rw [ea]
    cases a with
    | true =>
      refine ⟨b, hb1, ?_⟩
      simp only [List.forall_mem_cons, hb2]
      exact ⟨fun h => ⟨ha2.1 rfl, h⟩, fun h => h.2⟩
    | false =>
      refine ⟨false, rfl, ?_⟩
      simp only [List.forall_mem_cons]
      constructor
      · intro h; simp at h
      · intro h
        exact absurd (ha2.2 h.1) (by simp)

end PwDiff
