import Verif.Proofs.Apply

/-! # `apply_into` with an arbitrary writer, and its statistics -/

namespace PwDiff

open ChangeBasics TextClump

/-! ## What holds of a result -/

/-- Whenever the computation succeeds, on any writer, its result satisfies `P`. -/
def WM.Post {α : Type} (m : WM α) (P : α → Prop) : Prop := ∀ w a w', m w = (.ok a, w') → P a

namespace WM

variable {α β : Type}

theorem Post.pure {P : α → Prop} {a : α} (h : P a) : Post (pure a : WM α) P := by
  intro w b w' e
  obtain rfl : a = b := by
    have := congrArg Prod.fst e
    exact Outcome.ok.inj this
  exact h

theorem Post.bind {m : WM α} {f : α → WM β} {P : β → Prop} (h : ∀ a, Post (f a) P) : Post (m >>= f) P := by
  intro w b w' e
  change WM.bind m f w = _ at e
  unfold WM.bind at e
  split at e
  · next a w1 _ => exact h a w1 b w' e
  all_goals simp at e

theorem Post.bind' {m : WM α} {f : α → WM β} {P : β → Prop} {Q : α → Prop} (hm : Post m Q) (h : ∀ a, Q a → Post (f a) P) :
    Post (m >>= f) P := by
  intro w b w' e
  change WM.bind m f w = _ at e
  unfold WM.bind at e
  split at e
  · next a w1 e1 => exact h a (hm _ _ _ e1) w1 b w' e
  all_goals simp at e

end WM

/-- The number of clumps counted. -/
def Statistics.total (st : Statistics) : Nat :=
  st.clean + st.fuzzy + st.alreadyApplied + st.alreadyAppliedFuzzy + st.failed

variable {C T : Type} [TextClump C T] [DecidableEq T] [Item T]

theorem applyStep_total (p : Profile) (l : List T) (rev : Bool) (c : C) (next : Option C) (pd : ConsumableSeq T)
    (offset : Int) (st : Statistics) :
    WM.Post (applyStep p l rev c next pd offset st) (fun x => x.2.2.total = st.total + 1) := by
  unfold applyStep
  refine WM.Post.bind fun a => ?_
  split
  · exact WM.Post.bind fun _ => WM.Post.pure (by simp only [Statistics.total]; omega)
  · exact WM.Post.bind fun _ => WM.Post.pure (by simp only [Statistics.total]; omega)
  · refine WM.Post.bind fun b => ?_
    split
    · refine WM.Post.bind fun o => ?_
      split
      · exact WM.Post.bind fun _ => WM.Post.pure (by simp only [Statistics.total]; omega)
      · exact WM.Post.bind fun _ => WM.Post.pure (by simp only [Statistics.total]; omega)
    · refine WM.Post.bind fun a => ?_
      split
      · exact WM.Post.bind fun _ => WM.Post.pure (by simp only [Statistics.total]; omega)
      · exact WM.Post.bind fun _ => WM.Post.pure (by simp only [Statistics.total]; omega)
      · refine WM.Post.bind fun b => ?_
        split
        · refine WM.Post.bind fun o => ?_
          split
          · exact WM.Post.bind fun _ => WM.Post.pure (by simp only [Statistics.total]; omega)
          · exact WM.Post.bind fun _ => WM.Post.pure (by simp only [Statistics.total]; omega)
        · exact WM.Post.bind fun _ => WM.Post.pure (by simp only [Statistics.total]; omega)

theorem applyLoop_total (p : Profile) (l : List T) (rev : Bool) (cs : List C) (pd : ConsumableSeq T)
    (offset : Int) (st : Statistics) :
    WM.Post (applyLoop p l rev cs pd offset st) (fun x => x.2.total = st.total + cs.length) := by
  induction cs generalizing pd offset st with
  | nil => exact WM.Post.pure rfl
  | cons c cs ih =>
    unfold applyLoop
    refine WM.Post.bind' (applyStep_total p l rev c cs.head? pd offset st) fun a ha => ?_
    intro w x w' e
    have := ih _ _ _ w x w' e
    rw [this, ha, List.length_cons]; omega

/-! ## Writers -/

omit [DecidableEq T] in
theorem norm_writeLines (ls : List T) : WM.Norm (writeLines ls) := by
  induction ls with
  | nil => exact WM.norm_pure _
  | cons l ls ih => exact WM.Norm.bind (WM.norm_writeAll _) fun _ => ih

omit [DecidableEq T] in
theorem norm_beforeWriteInto (p : Profile) (c : C) (r : Option (Nat × Nat)) (rev : Bool) :
    WM.Norm (beforeWriteInto p c r rev) := by
  unfold beforeWriteInto
  split
  · exact WM.Norm.bind (WM.norm_lift _) fun _ => WM.Norm.bind (WM.norm_lift _) fun _ => norm_writeLines _
  · exact WM.Norm.bind (WM.norm_lift _) fun _ => norm_writeLines _

variable [LawfulItem T]

theorem norm_writeItems (ls : List T) : WM.Norm (Item.writeItems ls) := by
  rw [LawfulItem.writeItems_eq]
  exact WM.norm_writeAll _

theorem norm_writeInto (p : Profile) (ls : List T) (r : Range) : WM.Norm (writeInto p ls r) := by
  unfold writeInto
  exact WM.Norm.bind (WM.norm_lift _) fun _ => WM.Norm.bind (WM.norm_lift _) fun _ => norm_writeItems _

theorem norm_writeIntoUpto (p : Profile) (pd : ConsumableSeq T) (n : Nat) : WM.Norm (pd.writeIntoUpto p n) := by
  unfold ConsumableSeq.writeIntoUpto
  refine WM.Norm.bind (WM.norm_lift _) fun _ => ?_
  split
  · exact WM.Norm.bind (norm_writeInto ..) fun _ => WM.norm_pure _
  · exact WM.norm_pure _

theorem norm_writeRemainder (p : Profile) (pd : ConsumableSeq T) : WM.Norm (pd.writeRemainder p) := by
  unfold ConsumableSeq.writeRemainder
  exact WM.Norm.bind (norm_writeInto ..) fun _ => WM.norm_pure _

theorem norm_clumpApplyInto (p : Profile) (c : C) (pd : ConsumableSeq T) (o : Int) (r : Option (Nat × Nat)) (rev : Bool) :
    WM.Norm (clumpApplyInto p c pd o r rev) := by
  unfold clumpApplyInto
  exact WM.Norm.bind (WM.norm_lift _) fun _ => WM.Norm.bind (norm_writeIntoUpto _ _ _) fun _ =>
    WM.Norm.bind (norm_beforeWriteInto _ _ _ _) fun _ => WM.Norm.bind (WM.norm_lift _) fun _ => WM.norm_lift _

theorem norm_alreadyAppliedInto (p : Profile) (c : C) (pd : ConsumableSeq T) (o : Int) (r : Option (Nat × Nat)) (rev : Bool) :
    WM.Norm (alreadyAppliedInto p c pd o r rev) := by
  unfold alreadyAppliedInto
  exact WM.Norm.bind (WM.norm_lift _) fun _ => WM.Norm.bind (WM.norm_lift _) fun _ =>
    WM.Norm.bind (WM.norm_lift _) fun _ => norm_writeIntoUpto _ _ _

omit [DecidableEq T] [LawfulItem T] in
theorem norm_writeFailureDataInto (p : Profile) (c : C) (rev : Bool) : WM.Norm (writeFailureDataInto (T := T) p c rev) := by
  unfold writeFailureDataInto
  exact WM.Norm.bind (WM.norm_writeAll _) fun _ => WM.Norm.bind (norm_beforeWriteInto _ _ _ _) fun _ =>
    WM.Norm.bind (WM.norm_writeAll _) fun _ => WM.Norm.bind (norm_beforeWriteInto _ _ _ _) fun _ => WM.norm_writeAll _

theorem norm_applyStep (p : Profile) (l : List T) (rev : Bool) (c : C) (next : Option C) (pd : ConsumableSeq T)
    (offset : Int) (st : Statistics) : WM.Norm (applyStep p l rev c next pd offset st) := by
  unfold applyStep
  refine WM.Norm.bind (WM.norm_lift _) fun a => ?_
  split
  · exact WM.Norm.bind (norm_clumpApplyInto ..) fun _ => WM.norm_pure _
  · exact WM.Norm.bind (norm_clumpApplyInto ..) fun _ => WM.norm_pure _
  · refine WM.Norm.bind (WM.norm_lift _) fun b => ?_
    split
    · refine WM.Norm.bind (WM.norm_lift _) fun o => ?_
      split
      · exact WM.Norm.bind (norm_clumpApplyInto ..) fun _ => WM.norm_pure _
      · exact WM.Norm.bind (norm_clumpApplyInto ..) fun _ => WM.norm_pure _
    · refine WM.Norm.bind (WM.norm_lift _) fun a => ?_
      split
      · exact WM.Norm.bind (norm_alreadyAppliedInto ..) fun _ => WM.norm_pure _
      · exact WM.Norm.bind (norm_alreadyAppliedInto ..) fun _ => WM.norm_pure _
      · refine WM.Norm.bind (WM.norm_lift _) fun b => ?_
        split
        · refine WM.Norm.bind (WM.norm_lift _) fun o => ?_
          split
          · exact WM.Norm.bind (norm_alreadyAppliedInto ..) fun _ => WM.norm_pure _
          · exact WM.Norm.bind (norm_alreadyAppliedInto ..) fun _ => WM.norm_pure _
        · exact WM.Norm.bind (norm_writeFailureDataInto ..) fun _ => WM.norm_pure _

theorem norm_applyLoop (p : Profile) (l : List T) (rev : Bool) (cs : List C) (pd : ConsumableSeq T)
    (offset : Int) (st : Statistics) : WM.Norm (applyLoop p l rev cs pd offset st) := by
  induction cs generalizing pd offset st with
  | nil => exact WM.norm_pure _
  | cons c cs ih => exact WM.Norm.bind (norm_applyStep ..) fun _ => ih _ _ _

theorem norm_applyInto (p : Profile) (cs : List C) (l : List T) (rev : Bool) : WM.Norm (applyInto p cs l rev) := by
  unfold applyInto
  exact WM.Norm.bind (norm_applyLoop ..) fun _ => WM.Norm.bind (norm_writeRemainder ..) fun _ => WM.norm_pure _

end PwDiff
