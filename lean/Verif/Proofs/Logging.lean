import Verif.Model.Logging
import Verif.Proofs.Basic

/-! # Logging: facts about computations that log -/

namespace PwDiff

namespace LW

/-- Without its messages, `m` is `n`. -/
structure Erases {α : Type} (m : LW α) (n : WM α) : Prop where
  same : ∀ w log, (m (w, log)).1 = (n w).1 ∧ (m (w, log)).2.1 = (n w).2

variable {α β : Type}

theorem Erases.pure (a : α) : Erases (Pure.pure a) (Pure.pure a) := ⟨fun _ _ => ⟨rfl, rfl⟩⟩

theorem Erases.quiet (n : WM α) : Erases (LW.quiet n) n := ⟨fun _ _ => ⟨rfl, rfl⟩⟩

theorem Erases.bind {m : LW α} {n : WM α} {f : α → LW β} {g : α → WM β} (h : Erases m n) (hf : ∀ a, Erases (f a) (g a)) :
    Erases (m >>= f) (n >>= g) := by
  refine ⟨fun w log => ?_⟩
  obtain ⟨h1, h2⟩ := h.same w log
  show (LW.bind m f (w, log)).1 = (WM.bind n g w).1 ∧ (LW.bind m f (w, log)).2.1 = (WM.bind n g w).2
  unfold LW.bind WM.bind
  generalize m (w, log) = x at *
  generalize n w = y at *
  obtain ⟨o, w1, log1⟩ := x
  obtain ⟨o', w2⟩ := y
  simp only at h1 h2
  subst h1
  subst h2
  cases o with
  | ok a => exact (hf a).same _ _
  | ioErr => exact ⟨rfl, rfl⟩
  | panic => exact ⟨rfl, rfl⟩
  | diverge => exact ⟨rfl, rfl⟩

theorem Erases.say {level : Level} {message : Message} {f : Unit → LW β} {n : WM β} (h : Erases (f ()) n) :
    Erases (LW.say level message >>= f) n := ⟨fun w _ => h.same w _⟩

theorem Erases.writing {m : LW α} {n : WM α} (h : Erases m n) : LS.writing m = n := by
  funext w
  obtain ⟨h1, h2⟩ := h.same w []
  exact Prod.ext h1 h2

/-- What `m` adds to the log: `Q` of the result and the added records if it succeeds, `E` of the added records if not. -/
structure Logs {α : Type} (m : LW α) (Q : α → List Record → Prop) (E : List Record → Prop) : Prop where
  added : ∀ s, ∃ extra, (m s).2.2 = s.2 ++ extra ∧ (∀ a, (m s).1 = .ok a → Q a extra) ∧ ((∀ a, (m s).1 ≠ .ok a) → E extra)

theorem Logs.pure {a : α} {Q : α → List Record → Prop} {E : List Record → Prop} (h : Q a []) : Logs (Pure.pure a) Q E :=
  ⟨fun _ => ⟨[], (List.append_nil _).symm, fun _ hb => Outcome.ok.inj hb ▸ h, fun hb => absurd rfl (hb a)⟩⟩

theorem Logs.quiet {m : WM α} {Q : α → List Record → Prop} {E : List Record → Prop}
    (h : ∀ a w w', m w = (.ok a, w') → Q a []) (he : E []) : Logs (LW.quiet m) Q E :=
  ⟨fun s => ⟨[], (List.append_nil _).symm, fun a ha => h a s.1 (m s.1).2 (Prod.ext ha rfl), fun _ => he⟩⟩

theorem Logs.lift {o : Outcome α} {Q : α → List Record → Prop} {E : List Record → Prop}
    (h : ∀ a, o = .ok a → Q a []) (he : E []) : Logs (LW.quiet (WM.lift o)) Q E :=
  Logs.quiet (fun a _ _ hm => h a (Prod.mk.inj hm).1) he

theorem Logs.say {level : Level} {message : Message} {Q : Unit → List Record → Prop} {E : List Record → Prop}
    (h : Q () [⟨.pwDiffLib, level, message⟩]) : Logs (LW.say level message) Q E :=
  ⟨fun _ => ⟨_, rfl, fun _ _ => h, fun hb => absurd rfl (hb ())⟩⟩

theorem Logs.bind {m : LW α} {f : α → LW β} {Q1 : α → List Record → Prop} {Q : β → List Record → Prop}
    {E E1 : List Record → Prop} (h : Logs m Q1 E1) (he : ∀ ex, E1 ex → E ex)
    (hf : ∀ a ex, Q1 a ex → Logs (f a) (fun b ex' => Q b (ex ++ ex')) (fun ex' => E (ex ++ ex'))) :
    Logs (m >>= f) Q E := by
  refine ⟨fun s => ?_⟩
  obtain ⟨ex, h1, h2, h3⟩ := h.added s
  show ∃ extra, (LW.bind m f s).2.2 = s.2 ++ extra ∧ (∀ a, (LW.bind m f s).1 = .ok a → Q a extra) ∧
    ((∀ a, (LW.bind m f s).1 ≠ .ok a) → E extra)
  unfold LW.bind
  generalize m s = x at *
  obtain ⟨o, w1, log1⟩ := x
  simp only at h1 h2 h3
  cases o with
  | ok a =>
    obtain ⟨ex', g1, g2, g3⟩ := (hf a ex (h2 a rfl)).added (w1, log1)
    refine ⟨ex ++ ex', ?_, g2, g3⟩
    simp only at g1 ⊢
    rw [g1, h1, List.append_assoc]
  | ioErr => exact ⟨ex, h1, fun a ha => by simp at ha, fun _ => he _ (h3 fun a => by simp)⟩
  | panic => exact ⟨ex, h1, fun a ha => by simp at ha, fun _ => he _ (h3 fun a => by simp)⟩
  | diverge => exact ⟨ex, h1, fun a ha => by simp at ha, fun _ => he _ (h3 fun a => by simp)⟩

theorem Logs.mono {m : LW α} {Q Q' : α → List Record → Prop} {E E' : List Record → Prop} (h : Logs m Q E)
    (hq : ∀ a ex, Q a ex → Q' a ex) (he : ∀ ex, E ex → E' ex) : Logs m Q' E' := by
  refine ⟨fun s => ?_⟩
  obtain ⟨ex, h1, h2, h3⟩ := h.added s
  exact ⟨ex, h1, fun a ha => hq a ex (h2 a ha), fun hb => he ex (h3 hb)⟩

/-- Binding something quiet. -/
theorem Logs.quiet_bind {m : WM α} {f : α → LW β} {Q : β → List Record → Prop} {E : List Record → Prop}
    (he : E []) (hf : ∀ a w w', m w = (.ok a, w') → Logs (f a) Q E) : Logs (LW.quiet m >>= f) Q E := by
  refine Logs.bind (Q1 := fun a ex => ex = [] ∧ ∃ w w', m w = (.ok a, w')) (E1 := (· = []))
    (Logs.quiet (fun a w w' h => ⟨rfl, w, w', h⟩) rfl) (fun ex h => h ▸ he) ?_
  rintro a _ ⟨rfl, w, w', h⟩
  exact hf a w w' h

theorem Logs.lift_bind {o : Outcome α} {f : α → LW β} {Q : β → List Record → Prop} {E : List Record → Prop}
    (he : E []) (hf : ∀ a, o = .ok a → Logs (f a) Q E) : Logs (LW.quiet (WM.lift o) >>= f) Q E :=
  Logs.quiet_bind he fun a _ _ h => hf a (Prod.mk.inj h).1

theorem Logs.say_pure {level : Level} {message : Message} {a : α} {Q : α → List Record → Prop} {E : List Record → Prop}
    (h : Q a [⟨.pwDiffLib, level, message⟩]) : Logs (LW.say level message >>= fun _ => Pure.pure a) Q E :=
  Logs.bind (Q1 := fun _ ex => ex = [⟨.pwDiffLib, level, message⟩]) (E1 := E) (Logs.say rfl) (fun _ h => h)
    fun _ _ he => Logs.pure (by subst he; exact h)

end LW

theorem WM.lift_bind {α β : Type} (o : Outcome α) (f : α → Outcome β) :
    WM.lift (o >>= f) = (WM.lift o >>= fun a => WM.lift (f a)) := by
  cases o <;> rfl

/-! ## Without the messages -/

section erase

variable {T : Type} {C : Type} [TextClump C T] [DecidableEq T] [Item T]

open LW

theorem applyStepL_erases (p : Profile) (l : List T) (rev : Bool) (n : Nat) (c : C) (next : Option C)
    (pd : ConsumableSeq T) (offset : Int) (st : Statistics) :
    Erases (applyStepL p l rev n c next pd offset st) (applyStep p l rev c next pd offset st) := by
  unfold applyStepL applyStep
  refine .bind (.quiet _) fun a => ?_
  match a with
  | some .cleanly => exact .bind (.quiet _) fun pd => .say (.pure _)
  | some (.withReductions r) => exact .bind (.quiet _) fun pd => .say (.pure _)
  | none =>
    refine .bind (.quiet _) fun a => ?_
    match a with
    | some (d, .cleanly) => exact .bind (.quiet _) fun _ => .bind (.quiet _) fun pd => .say (.pure _)
    | some (d, .withReductions r) => exact .bind (.quiet _) fun _ => .bind (.quiet _) fun pd => .say (.pure _)
    | none =>
      refine .bind (.quiet _) fun a => ?_
      match a with
      | some .cleanly => exact .bind (.quiet _) fun pd => .say (.pure _)
      | some (.withReductions r) => exact .bind (.quiet _) fun pd => .say (.pure _)
      | none =>
        refine .bind (.quiet _) fun a => ?_
        match a with
        | some (d, .cleanly) => exact .bind (.quiet _) fun _ => .bind (.quiet _) fun pd => .say (.pure _)
        | some (d, .withReductions r) => exact .bind (.quiet _) fun _ => .bind (.quiet _) fun pd => .say (.pure _)
        | none => exact .bind (.quiet _) fun _ => .say (.pure _)

theorem applyLoopL_erases (p : Profile) (l : List T) (rev : Bool) (n : Nat) (cs : List C) (pd : ConsumableSeq T) (offset : Int)
    (st : Statistics) : Erases (applyLoopL p l rev n cs pd offset st) (applyLoop p l rev cs pd offset st) := by
  induction cs generalizing n pd offset st with
  | nil => exact .pure _
  | cons c cs ih => exact .bind (applyStepL_erases ..) fun x => ih ..

/-- Without its messages `applyIntoL` is `applyInto`. -/
theorem applyIntoL_erases (p : Profile) (cs : List C) (l : List T) (rev : Bool) :
    Erases (applyIntoL p cs l rev) (applyInto p cs l rev) :=
  .bind (applyLoopL_erases ..) fun _ => .bind (.quiet _) fun _ => .pure _

omit [Item T] in
theorem isAlreadyAppliedLoopL_erases (p : Profile) (l : List T) (rev : Bool) (pd : ConsumableSeq T) (n : Nat) (cs : List C)
    (offset : Int) :
    Erases (isAlreadyAppliedLoopL p l rev pd n cs offset) (WM.lift (isAlreadyAppliedLoop p l rev pd cs offset)) := by
  induction cs generalizing n offset with
  | nil => exact .pure _
  | cons c cs ih =>
    unfold isAlreadyAppliedLoopL isAlreadyAppliedLoop
    rw [WM.lift_bind]
    refine .bind (.quiet _) fun a => ?_
    match a with
    | some .cleanly => exact .say (ih (n + 1) offset)
    | some (.withReductions r) => exact .say (ih (n + 1) offset)
    | none =>
      simp only
      rw [WM.lift_bind]
      refine .bind (.quiet _) fun a => ?_
      match a with
      | some (d, .cleanly) =>
        simp only
        rw [WM.lift_bind]
        exact .bind (.quiet _) fun _ => .say (ih ..)
      | some (d, .withReductions r) =>
        simp only
        rw [WM.lift_bind]
        exact .bind (.quiet _) fun _ => .say (ih ..)
      | none => exact .say (.pure _)

omit [Item T] in
/-- Without its messages `isAlreadyAppliedL` is `isAlreadyApplied`. -/
theorem isAlreadyAppliedL_erases (p : Profile) (cs : List C) (l : List T) (rev : Bool) :
    Erases (isAlreadyAppliedL p cs l rev) (WM.lift (isAlreadyApplied p cs l rev)) := isAlreadyAppliedLoopL_erases ..

end erase

theorem WM.bind_pure_self {α : Type} (m : WM α) : (m >>= fun a => pure a) = m := by
  funext w
  show WM.bind m (fun a => pure a) w = m w
  unfold WM.bind
  rcases m w with ⟨o, w'⟩
  cases o <;> rfl

theorem byteApplyStepL_erases (p : Profile) (l : List UInt8) (rev : Bool) (n : Nat) (c : DiffClump UInt8)
    (pd : ConsumableSeq UInt8) : LW.Erases (byteApplyStepL p l rev n c pd) (byteApplyStep p l rev c pd) := by
  unfold byteApplyStepL byteApplyStep
  refine .bind (.quiet _) fun a => ?_
  cases a with
  | true =>
    simp only [if_true]
    rw [← WM.bind_pure_self (byteClumpApplyInto p c pd rev)]
    exact .bind (by rw [WM.bind_pure_self]; exact .quiet _) fun _ => .say (.pure _)
  | false =>
    refine .bind (.quiet _) fun a => ?_
    cases a with
    | true =>
      simp only [if_true]
      rw [← WM.bind_pure_self (byteAlreadyAppliedInto p c pd rev)]
      exact .bind (by rw [WM.bind_pure_self]; exact .quiet _) fun _ => .say (.pure _)
    | false => exact .say (.pure _)

theorem byteApplyLoopL_erases (p : Profile) (l : List UInt8) (rev : Bool) (n : Nat) (cs : List (DiffClump UInt8))
    (pd : ConsumableSeq UInt8) : LW.Erases (byteApplyLoopL p l rev n cs pd) (byteApplyLoop p l rev cs pd) := by
  induction cs generalizing n pd with
  | nil => exact .pure _
  | cons c cs ih => exact .bind (byteApplyStepL_erases ..) fun x => ih ..

/-- Without its messages `byteApplyIntoL` is `byteApplyInto`. -/
theorem byteApplyIntoL_erases (p : Profile) (cs : List (DiffClump UInt8)) (l : List UInt8) (rev : Bool) :
    LW.Erases (byteApplyIntoL p cs l rev) (byteApplyInto p cs l rev) :=
  .bind (byteApplyLoopL_erases ..) fun _ => .bind (.quiet _) fun _ => .pure _

/-- Without its messages `byteAlreadyAppliedL` is `byteAlreadyApplied`. -/
theorem byteAlreadyAppliedL_erases (p : Profile) (l : List UInt8) (rev : Bool) (n : Nat) (cs : List (DiffClump UInt8)) :
    LW.Erases (byteAlreadyAppliedL p l rev n cs) (WM.lift (byteAlreadyApplied p l rev cs)) := by
  induction cs generalizing n with
  | nil => exact .pure _
  | cons c cs ih =>
    unfold byteAlreadyAppliedL byteAlreadyApplied
    rw [WM.lift_bind]
    refine .bind (.quiet _) fun a => ?_
    cases a with
    | true => exact .say (ih _)
    | false => exact .say (.pure _)

/-! ## What is logged -/

section told

variable {T : Type} {C : Type} [TextClump C T] [DecidableEq T] [Item T]

open LW

/-- What one step of `apply_into` has found out and logs, and the new offset and statistics. -/
inductive Told (p : Profile) (l : List T) (rev : Bool) (n : Nat) (c : C) (next : Option C) (pd : ConsumableSeq T) (offset : Int)
    (st : Statistics) : Record → Int → Statistics → Prop
  | clean : willApply p c l offset rev = .ok (some .cleanly) →
      Told p l rev n c next pd offset st ⟨.pwDiffLib, .info, .applies n⟩ offset { st with clean := st.clean + 1 }
  | reduced {r} : willApply p c l offset rev = .ok (some (.withReductions r)) →
      Told p l rev n c next pd offset st ⟨.pwDiffLib, .warn, .appliesReduced n r⟩ offset { st with fuzzy := st.fuzzy + 1 }
  | nearby {d o} : willApply p c l offset rev = .ok none → willApplyNearby p c pd next offset rev = .ok (some (d, .cleanly)) →
      iadd p offset d = .ok o →
      Told p l rev n c next pd offset st ⟨.pwDiffLib, .warn, .appliesOffset n d⟩ o { st with fuzzy := st.fuzzy + 1 }
  | nearbyReduced {d r o} : willApply p c l offset rev = .ok none →
      willApplyNearby p c pd next offset rev = .ok (some (d, .withReductions r)) → iadd p offset d = .ok o →
      Told p l rev n c next pd offset st ⟨.pwDiffLib, .warn, .appliesReducedOffset n r d⟩ o { st with fuzzy := st.fuzzy + 1 }
  | already : willApply p c l offset rev = .ok none → willApplyNearby p c pd next offset rev = .ok none →
      clumpIsAlreadyApplied p c l offset rev = .ok (some .cleanly) →
      Told p l rev n c next pd offset st ⟨.pwDiffLib, .warn, .already n⟩ offset
        { st with alreadyApplied := st.alreadyApplied + 1 }
  | alreadyReduced {r} : willApply p c l offset rev = .ok none → willApplyNearby p c pd next offset rev = .ok none →
      clumpIsAlreadyApplied p c l offset rev = .ok (some (.withReductions r)) →
      Told p l rev n c next pd offset st ⟨.pwDiffLib, .warn, .alreadyReduced n r⟩ offset
        { st with alreadyAppliedFuzzy := st.alreadyAppliedFuzzy + 1 }
  | alreadyNearby {d o} : willApply p c l offset rev = .ok none → willApplyNearby p c pd next offset rev = .ok none →
      clumpIsAlreadyApplied p c l offset rev = .ok none →
      clumpIsAlreadyAppliedNearby p c pd next offset rev = .ok (some (d, .cleanly)) → iadd p offset d = .ok o →
      Told p l rev n c next pd offset st ⟨.pwDiffLib, .warn, .alreadyOffset n d⟩ o
        { st with alreadyAppliedFuzzy := st.alreadyAppliedFuzzy + 1 }
  | alreadyNearbyReduced {d r o} : willApply p c l offset rev = .ok none → willApplyNearby p c pd next offset rev = .ok none →
      clumpIsAlreadyApplied p c l offset rev = .ok none →
      clumpIsAlreadyAppliedNearby p c pd next offset rev = .ok (some (d, .withReductions r)) → iadd p offset d = .ok o →
      Told p l rev n c next pd offset st ⟨.pwDiffLib, .warn, .alreadyReducedOffset n r d⟩ o
        { st with alreadyAppliedFuzzy := st.alreadyAppliedFuzzy + 1 }
  | failed : willApply p c l offset rev = .ok none → willApplyNearby p c pd next offset rev = .ok none →
      clumpIsAlreadyApplied p c l offset rev = .ok none → clumpIsAlreadyAppliedNearby p c pd next offset rev = .ok none →
      Told p l rev n c next pd offset st ⟨.pwDiffLib, .error, .notApplied n⟩ offset { st with failed := st.failed + 1 }

theorem applyStepL_logs (p : Profile) (l : List T) (rev : Bool) (n : Nat) (c : C) (next : Option C) (pd : ConsumableSeq T)
    (offset : Int) (st : Statistics) :
    Logs (applyStepL p l rev n c next pd offset st)
      (fun x ex => ∃ r, ex = [r] ∧ Told p l rev n c next pd offset st r x.2.1 x.2.2) (· = []) := by
  unfold applyStepL
  refine .lift_bind rfl fun a h1 => ?_
  match a with
  | some .cleanly => exact .quiet_bind rfl fun pd _ _ _ => .say_pure ⟨_, rfl, .clean h1⟩
  | some (.withReductions r) => exact .quiet_bind rfl fun pd _ _ _ => .say_pure ⟨_, rfl, .reduced h1⟩
  | none =>
    refine .lift_bind rfl fun a h2 => ?_
    match a with
    | some (d, .cleanly) =>
      exact .lift_bind rfl fun _ h3 => .quiet_bind rfl fun pd _ _ _ => .say_pure ⟨_, rfl, .nearby h1 h2 h3⟩
    | some (d, .withReductions r) =>
      exact .lift_bind rfl fun _ h3 => .quiet_bind rfl fun pd _ _ _ => .say_pure ⟨_, rfl, .nearbyReduced h1 h2 h3⟩
    | none =>
      refine .lift_bind rfl fun a h3 => ?_
      match a with
      | some .cleanly => exact .quiet_bind rfl fun pd _ _ _ => .say_pure ⟨_, rfl, .already h1 h2 h3⟩
      | some (.withReductions r) => exact .quiet_bind rfl fun pd _ _ _ => .say_pure ⟨_, rfl, .alreadyReduced h1 h2 h3⟩
      | none =>
        refine .lift_bind rfl fun a h4 => ?_
        match a with
        | some (d, .cleanly) =>
          exact .lift_bind rfl fun _ h5 => .quiet_bind rfl fun pd _ _ _ => .say_pure ⟨_, rfl, .alreadyNearby h1 h2 h3 h4 h5⟩
        | some (d, .withReductions r) =>
          exact .lift_bind rfl fun _ h5 => .quiet_bind rfl fun pd _ _ _ =>
            .say_pure ⟨_, rfl, .alreadyNearbyReduced h1 h2 h3 h4 h5⟩
        | none => exact .quiet_bind rfl fun _ _ _ _ => .say_pure ⟨_, rfl, .failed h1 h2 h3 h4⟩

end told

end PwDiff
