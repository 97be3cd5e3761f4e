import Verif.Proofs.LoggingText
import Verif.Proofs.Programs

/-! # Logging: byte patches and the programs -/

namespace PwDiff

/-! ## `is_already_applied` and byte patches -/

section already

variable {T : Type} {C : Type} [TextClump C T] [DecidableEq T]

open LW

/-- The log of an answer of `is_already_applied`: one message for every clump up to the first that is not applied, which
is the only error. -/
structure Answered (n : Nat) (count : Nat) (answer : Bool) (log : List Record) : Prop where
  numbered : NumberedFrom n log
  library : ∀ r ∈ log, r.crate = .pwDiffLib
  yes : answer = true → log.length = count ∧ ∀ r ∈ log, r.level ≠ .error
  no : answer = false → log.length ≤ count ∧ ∃ init, log = init ++ [⟨.pwDiffLib, .error, .notAlready (n + init.length + 1)⟩] ∧
    ∀ r ∈ init, r.level ≠ .error

theorem Answered.cons {n count : Nat} {answer : Bool} {log : List Record} {r : Record}
    (h : Answered (n + 1) count answer log) (h1 : r.message.clump = some (n + 1)) (h2 : r.crate = .pwDiffLib)
    (h3 : r.level ≠ .error) : Answered n (count + 1) answer ([r] ++ log) := by
  refine ⟨.cons h1 h.numbered, ?_, ?_, ?_⟩
  · intro x hx
    simp only [List.singleton_append, List.mem_cons] at hx
    rcases hx with rfl | hx
    · exact h2
    · exact h.library x hx
  · intro ha
    refine ⟨by simp [(h.yes ha).1], ?_⟩
    intro x hx
    simp only [List.singleton_append, List.mem_cons] at hx
    rcases hx with rfl | hx
    · exact h3
    · exact (h.yes ha).2 x hx
  · intro ha
    obtain ⟨g1, init, rfl, g3⟩ := h.no ha
    refine ⟨by simp at g1 ⊢; omega, r :: init, ?_, ?_⟩
    · simp only [List.length_cons, List.cons_append, List.nil_append]
      rw [show n + 1 + init.length + 1 = n + (init.length + 1) + 1 by omega]
    · intro x hx
      simp only [List.mem_cons] at hx
      rcases hx with rfl | hx
      · exact h3
      · exact g3 x hx

theorem Answered.last (n count : Nat) (h : 1 ≤ count) :
    Answered n count false [⟨.pwDiffLib, .error, .notAlready (n + 1)⟩] := by
  refine ⟨.cons rfl (.nil _), ?_, ?_, ?_⟩
  · simp
  · intro h
    cases h
  · intro _
    exact ⟨h, [], rfl, by simp⟩

theorem LW.Logs.say_bind {α : Type} {level : Level} {message : Message} {f : Unit → LW α} {Q : α → List Record → Prop}
    {E : List Record → Prop}
    (h : Logs (f ()) (fun a ex => Q a ([⟨.pwDiffLib, level, message⟩] ++ ex)) (fun ex => E ([⟨.pwDiffLib, level, message⟩] ++ ex))) :
    Logs (LW.say level message >>= f) Q E :=
  Logs.bind (Q1 := fun _ ex => ex = [⟨.pwDiffLib, level, message⟩]) (E1 := E) (Logs.say rfl) (fun _ h => h)
    fun _ _ he => by subst he; exact h

theorem isAlreadyAppliedLoopL_logs (p : Profile) (l : List T) (rev : Bool) (pd : ConsumableSeq T) (n : Nat) (cs : List C)
    (offset : Int) :
    Logs (isAlreadyAppliedLoopL p l rev pd n cs offset) (fun b ex => Answered n cs.length b ex) (fun _ => True) := by
  induction cs generalizing n offset with
  | nil => exact .pure ⟨.nil n, by simp, by simp, by simp⟩
  | cons c cs ih =>
    unfold isAlreadyAppliedLoopL
    refine .lift_bind trivial fun a _ => ?_
    match a with
    | some .cleanly =>
      exact .say_bind ((ih (n + 1) offset).mono (fun b ex h => h.cons rfl rfl (by simp)) fun _ _ => trivial)
    | some (.withReductions r) =>
      exact .say_bind ((ih (n + 1) offset).mono (fun b ex h => h.cons rfl rfl (by simp)) fun _ _ => trivial)
    | none =>
      refine .lift_bind trivial fun a _ => ?_
      match a with
      | some (d, .cleanly) =>
        exact .lift_bind trivial fun o _ =>
          .say_bind ((ih (n + 1) o).mono (fun b ex h => h.cons rfl rfl (by simp)) fun _ _ => trivial)
      | some (d, .withReductions r) =>
        exact .lift_bind trivial fun o _ =>
          .say_bind ((ih (n + 1) o).mono (fun b ex h => h.cons rfl rfl (by simp)) fun _ _ => trivial)
      | none => exact .say_pure (Answered.last n _ (by simp))

end already

section bytes

open LW

/-- The one message there can be about a byte clump, found in `l` by its old side, its new side, or not at all. -/
def ByteTells (l : List UInt8) (old new : Snippet UInt8) (n : Nat) (r : Record) : Prop :=
  (FoundIn l old ∧ r = ⟨.pwDiffLib, .info, .applies n⟩) ∨
  (¬ FoundIn l old ∧ FoundIn l new ∧ r = ⟨.pwDiffLib, .warn, .already n⟩) ∨
  (¬ FoundIn l old ∧ ¬ FoundIn l new ∧ r = ⟨.pwDiffLib, .error, .notApplied n⟩)

theorem byteApplyStepL_logs (p : Profile) (l : List UInt8) (rev : Bool) (n : Nat) (c : DiffClump UInt8) (pd : ConsumableSeq UInt8) :
    Logs (byteApplyStepL p l rev n c pd) (fun _ ex => ∃ r, ex = [r] ∧ ByteTells l (c.beforeSide rev) (c.afterSide rev) n r)
      (· = []) := by
  obtain ⟨b, e1, f1⟩ := hasSubsequenceAt_spec p l (c.beforeSide rev)
  obtain ⟨a, e2, f2⟩ := hasSubsequenceAt_spec p l (c.afterSide rev)
  unfold byteApplyStepL
  refine .lift_bind rfl fun x hx => ?_
  obtain rfl : b = x := Outcome.ok.inj (e1.symm.trans hx)
  cases b with
  | true => exact .quiet_bind rfl fun _ _ _ _ => .say_pure ⟨_, rfl, .inl ⟨f1.1 rfl, rfl⟩⟩
  | false =>
    have g1 : ¬ FoundIn l (c.beforeSide rev) := fun h => by cases f1.2 h
    refine .lift_bind rfl fun x hx => ?_
    obtain rfl : a = x := Outcome.ok.inj (e2.symm.trans hx)
    cases a with
    | true => exact .quiet_bind rfl fun _ _ _ _ => .say_pure ⟨_, rfl, .inr (.inl ⟨g1, f2.1 rfl, rfl⟩)⟩
    | false =>
      have g2 : ¬ FoundIn l (c.afterSide rev) := fun h => by cases f2.2 h
      exact .say_pure ⟨_, rfl, .inr (.inr ⟨g1, g2, rfl⟩)⟩

/-- The records are about the clumps in order, from number `n + 1` on. -/
def ByteTruthful (l : List UInt8) (rev : Bool) (n : Nat) (cs : List (DiffClump UInt8)) (log : List Record) : Prop :=
  ∀ i r, log[i]? = some r → ∃ c, cs[i]? = some c ∧ ByteTells l (c.beforeSide rev) (c.afterSide rev) (n + i + 1) r

theorem ByteTruthful.nil (l : List UInt8) (rev : Bool) (n : Nat) (cs : List (DiffClump UInt8)) : ByteTruthful l rev n cs [] := by
  intro i r h
  simp at h

theorem ByteTruthful.cons {l : List UInt8} {rev : Bool} {n : Nat} {c : DiffClump UInt8} {cs : List (DiffClump UInt8)} {r : Record}
    {log : List Record} (h : ByteTells l (c.beforeSide rev) (c.afterSide rev) (n + 1) r) (g : ByteTruthful l rev (n + 1) cs log) :
    ByteTruthful l rev n (c :: cs) ([r] ++ log) := by
  intro i r' hi
  cases i with
  | zero =>
    simp at hi
    subst hi
    exact ⟨c, rfl, h⟩
  | succ i =>
    simp at hi
    obtain ⟨c', h1, h2⟩ := g i r' hi
    refine ⟨c', by simpa using h1, ?_⟩
    rw [show n + (i + 1) + 1 = n + 1 + i + 1 by omega]
    exact h2

theorem byteApplyLoopL_logs (p : Profile) (l : List UInt8) (rev : Bool) (n : Nat) (cs : List (DiffClump UInt8))
    (pd : ConsumableSeq UInt8) :
    Logs (byteApplyLoopL p l rev n cs pd) (fun _ ex => ByteTruthful l rev n cs ex ∧ ex.length = cs.length)
      (fun ex => ByteTruthful l rev n cs ex ∧ ex.length < cs.length) := by
  induction cs generalizing n pd with
  | nil => exact .pure ⟨.nil l rev n _, rfl⟩
  | cons c cs ih =>
    refine .bind (byteApplyStepL_logs p l rev (n + 1) c pd) ?_ ?_
    · rintro _ rfl
      exact ⟨.nil l rev n _, by simp⟩
    · rintro pd' _ ⟨r, rfl, h⟩
      exact (ih (n + 1) pd').mono (fun _ ex ⟨h1, h2⟩ => ⟨.cons h h1, by simp [h2]⟩)
        (fun ex ⟨h1, h2⟩ => ⟨.cons h h1, by simpa using h2⟩)

theorem byteApplyIntoL_logs (p : Profile) (l : List UInt8) (rev : Bool) (cs : List (DiffClump UInt8)) :
    Logs (byteApplyIntoL p cs l rev) (fun _ ex => ByteTruthful l rev 0 cs ex ∧ ex.length = cs.length)
      (fun ex => ByteTruthful l rev 0 cs ex ∧ ex.length ≤ cs.length) := by
  refine .bind (byteApplyLoopL_logs p l rev 0 cs _) (fun _ h => ⟨h.1, by omega⟩) ?_
  rintro pd ex ⟨h1, h2⟩
  refine .quiet_bind (by simp only [List.append_nil]; exact ⟨h1, by omega⟩) fun _ _ _ _ => .pure ?_
  simp only [List.append_nil]
  exact ⟨h1, h2⟩

theorem byteAlreadyAppliedL_logs (p : Profile) (l : List UInt8) (rev : Bool) (n : Nat) (cs : List (DiffClump UInt8)) :
    Logs (byteAlreadyAppliedL p l rev n cs) (fun b ex => Answered n cs.length b ex) (fun _ => True) := by
  induction cs generalizing n with
  | nil => exact .pure ⟨.nil n, by simp, by simp, by simp⟩
  | cons c cs ih =>
    unfold byteAlreadyAppliedL
    refine .lift_bind trivial fun a _ => ?_
    cases a with
    | true => exact .say_bind ((ih (n + 1)).mono (fun b ex h => h.cons rfl rfl (by simp)) fun _ _ => trivial)
    | false => exact .say_pure (Answered.last n _ (by simp))

end bytes

/-! ## Processes that log -/

namespace LS

/-- Without its messages, `m` is `n`. -/
structure Erases {α : Type} (m : LS α) (n : Sys α) : Prop where
  same : ∀ w log, (m (w, log)).1 = (n w).1 ∧ (m (w, log)).2.1 = (n w).2

variable {α β : Type}

theorem Erases.pure (a : α) : Erases (Pure.pure a) (Pure.pure a) := ⟨fun _ _ => ⟨rfl, rfl⟩⟩

theorem Erases.quiet (n : Sys α) : Erases (LS.quiet n) n := ⟨fun _ _ => ⟨rfl, rfl⟩⟩

theorem Erases.bind {m : LS α} {n : Sys α} {f : α → LS β} {g : α → Sys β} (h : Erases m n) (hf : ∀ a, Erases (f a) (g a)) :
    Erases (m >>= f) (n >>= g) := by
  refine ⟨fun w log => ?_⟩
  obtain ⟨h1, h2⟩ := h.same w log
  show (LS.bind m f (w, log)).1 = (Sys.bind n g w).1 ∧ (LS.bind m f (w, log)).2.1 = (Sys.bind n g w).2
  unfold LS.bind Sys.bind
  generalize m (w, log) = x at *
  generalize n w = y at *
  obtain ⟨o, w1, log1⟩ := x
  obtain ⟨o', w2⟩ := y
  simp only at h1 h2
  subst h1
  subst h2
  cases o with
  | ok a => exact (hf a).same _ _
  | error e => exact ⟨rfl, rfl⟩

theorem Erases.say {crate : Crate} {level : Level} {message : Message} {f : Unit → LS β} {n : Sys β} (h : Erases (f ()) n) :
    Erases (LS.say crate level message >>= f) n := ⟨fun w _ => h.same w _⟩

theorem Erases.fatal (crate : Crate) (message : Message) (code : Nat) :
    Erases (LS.fatal crate message code : LS α) (Sys.exit code) := ⟨fun _ _ => ⟨rfl, rfl⟩⟩

theorem Erases.said (crate : Crate) (level : Level) (message : Message) :
    Erases (LS.say crate level message) (Pure.pure ()) := ⟨fun _ _ => ⟨rfl, rfl⟩⟩

theorem Erases.writeFile {m : LW α} {n : WM α} (h : LW.Erases m n) (i : Nat) : Erases (LS.writeFile i m) (Sys.writeFile i n) := by
  refine ⟨fun w log => ?_⟩
  show (Sys.writeFile i (writing m) w).1 = _ ∧ (Sys.writeFile i (writing m) w).2 = _
  rw [h.writing]
  exact ⟨rfl, rfl⟩

theorem Erases.run {m : LS Unit} {n : Sys Unit} (h : Erases m n) (w : World) :
    (m.run w).1 = (n.run w).1 ∧ (m.run w).2.1 = (n.run w).2 := by
  obtain ⟨h1, h2⟩ := h.same w []
  unfold LS.run Sys.run
  generalize m (w, []) = x at *
  generalize n w = y at *
  obtain ⟨o, w1, log1⟩ := x
  obtain ⟨o', w2⟩ := y
  simp only at h1 h2
  subst h1
  subst h2
  cases o <;> exact ⟨rfl, rfl⟩

end LS

open LS in
theorem pwDiffL_erases (p : Profile) (before after : Path) (context : Nat) :
    Erases (pwDiffL p before after context) (pwDiff p before after context) := by
  unfold pwDiffL pwDiff
  refine .bind (.quiet _) fun o => ?_
  cases o with
  | none => exact .fatal ..
  | some d =>
    refine .bind (.quiet _) fun o => ?_
    refine .bind (.quiet _) fun o => ?_
    cases o with
    | none => exact .fatal ..
    | some _ => exact .pure ()

open LS in
theorem finishPatchL_erases {β : Type} (temp patchable : Path) (f : β → Message) (o : Outcome β) :
    Erases (finishPatchL temp patchable f o) (finishPatch temp patchable o) := by
  cases o with
  | ok st =>
    refine .bind (.quiet _) fun b => ?_
    cases b with
    | true => exact .say (.quiet _)
    | false => exact .fatal ..
  | ioErr => exact .fatal ..
  | panic => exact .quiet _
  | diverge => exact ⟨fun _ _ => ⟨rfl, rfl⟩⟩

open LS in
theorem patchContentL_erases {β : Type} (temp patchable : Path) (f : β → Message) {m : LW β} {n : WM β} (h : LW.Erases m n) :
    Erases (patchContentL temp patchable f m) (patchContent temp patchable n) := by
  unfold patchContentL patchContent
  refine .bind (.quiet _) fun o => ?_
  cases o with
  | none => exact .fatal ..
  | some _ =>
    refine .bind (.quiet _) fun o => ?_
    cases o with
    | none => exact .fatal ..
    | some i => exact .bind (.writeFile h i) fun o => finishPatchL_erases ..

open LS in
theorem patchFileL_erases {α β : Type} (temp patchable : Path) (read : Reader → Outcome α) (f : β → Message) {m : α → LW β}
    {n : α → WM β} (h : ∀ a, LW.Erases (m a) (n a)) :
    Erases (patchFileL temp patchable read f m) (patchFile temp patchable read n) := by
  unfold patchFileL patchFile
  refine .bind (.quiet _) fun o => ?_
  cases o with
  | none => exact .fatal ..
  | some r =>
    refine .bind (.quiet _) fun o => ?_
    cases o with
    | none => exact .fatal ..
    | some a => exact patchContentL_erases _ _ _ (h a)

open LS in
theorem addFileL_erases (path : Path) (content : WM Unit) : Erases (addFileL path content) (addFile path content) := by
  unfold addFileL addFile
  refine .bind (.quiet _) fun o => ?_
  cases o with
  | none => exact .said ..
  | some i =>
    refine .bind (.quiet _) fun o => ?_
    cases o <;> exact .said ..

open LS in
theorem deleteFileL_erases (path : Path) : Erases (deleteFileL path) (deleteFile path) := by
  unfold deleteFileL deleteFile
  refine .bind (.quiet _) fun o => ?_
  cases o with
  | true => exact .said ..
  | false => exact .fatal ..

open LS in
theorem applyDiffL_erases (p : Profile) (temp : Path) (rev : Bool) (d : Diff) :
    Erases (applyDiffL p temp rev d) (applyDiff p temp rev d) := by
  cases d with
  | textChange d => exact patchFileL_erases _ _ _ _ fun l => applyIntoL_erases ..
  | byteChange d => exact patchFileL_erases _ _ _ _ fun l => byteApplyIntoL_erases ..
  | textAdd d => cases rev with | false => exact addFileL_erases .. | true => exact deleteFileL_erases ..
  | textRemove d => cases rev with | false => exact deleteFileL_erases .. | true => exact addFileL_erases ..
  | byteAdd d => cases rev with | false => exact addFileL_erases .. | true => exact deleteFileL_erases ..
  | byteRemove d => cases rev with | false => exact deleteFileL_erases .. | true => exact addFileL_erases ..

open LS in
theorem pwPatchL_erases (p : Profile) (temp patch : Path) (rev : Bool) :
    Erases (pwPatchL p temp patch rev) (pwPatch p temp patch rev) := by
  unfold pwPatchL pwPatch
  refine .bind (.quiet _) fun o => ?_
  cases o with
  | none => exact .fatal ..
  | some r =>
    refine .bind (.quiet _) fun o => ?_
    cases o with
    | none => exact .fatal ..
    | some d => exact applyDiffL_erases ..

end PwDiff
