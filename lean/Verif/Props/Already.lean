import Verif.Props.Fuzzy

/-! # C82: what `is_already_applied` answers -/

namespace PwDiff

section

variable {T : Type}

/-- Asking about file `l`, at offset `offset`, whether the clumps are already applied: every clump must have its new lines
(possibly with some context given up) at the expected place or near it, and the displacement found for a clump is carried
over to those after it.  The search is the same as that of `apply_into` when nothing has been dealt with yet. -/
inductive Recognising (p : Profile) (l : List T) : Int → List (DiffClump T) → Outcome Bool → Prop
  | done {offset} : Recognising p l offset [] (.ok true)
  | here {offset c cs w r} : FitsHere l offset c.contextLengths c.after (some w) →
      Recognising p l offset cs r → Recognising p l offset (c :: cs) r
  | crash {offset c cs} : FitsHere l offset c.contextLengths c.after none →
      p = .debug → Underflow l c.contextLengths c.after (cs.head?.map DiffClump.after) offset →
      Recognising p l offset (c :: cs) .panic
  | nearby {offset c cs d w r} : FitsHere l offset c.contextLengths c.after none →
      ¬ (p = .debug ∧ Underflow l c.contextLengths c.after (cs.head?.map DiffClump.after) offset) →
      Searched l 0 offset c.contextLengths c.after (cs.head?.map DiffClump.after) (some (d, w)) →
      Recognising p l (offset + d) cs r → Recognising p l offset (c :: cs) r
  | missing {offset c cs} : FitsHere l offset c.contextLengths c.after none →
      ¬ (p = .debug ∧ Underflow l c.contextLengths c.after (cs.head?.map DiffClump.after) offset) →
      Searched l 0 offset c.contextLengths c.after (cs.head?.map DiffClump.after) none →
      Recognising p l offset (c :: cs) (.ok false)

theorem Recognising.unique {p : Profile} {l : List T} {offset : Int} {cs : List (DiffClump T)} {r r' : Outcome Bool}
    (h : Recognising p l offset cs r) (h' : Recognising p l offset cs r') : r = r' := by
  have nof : ∀ {o : Int} {ctx : Nat × Nat} {side : Snippet T} {w : WillApply}, FitsHere l o ctx side none →
      FitsHere l o ctx side (some w) → False := by
    intro o ctx side w h1 h2
    have := fits_unique h1 h2
    simp at this
  induction h with
  | done => cases h'; rfl
  | here h1 _ ih =>
    cases h' with
    | here _ h => exact ih h
    | crash h | nearby h | missing h => exact (nof h h1).elim
  | crash h1 h2 h3 =>
    cases h' with
    | here h => exact (nof h1 h).elim
    | crash => rfl
    | nearby _ h | missing _ h => exact (h ⟨h2, h3⟩).elim
  | nearby h1 h2 h3 _ ih =>
    cases h' with
    | here h => exact (nof h1 h).elim
    | crash _ h h' => exact (h2 ⟨h, h'⟩).elim
    | nearby _ _ h h' =>
      have := nearest_unique h3 h
      simp only [Option.some.injEq, Prod.mk.injEq] at this
      obtain ⟨rfl, rfl⟩ := this
      exact ih h'
    | missing _ _ h => have := nearest_unique h3 h; simp at this
  | missing h1 h2 h3 =>
    cases h' with
    | here h => exact (nof h1 h).elim
    | crash _ h h' => exact (h2 ⟨h, h'⟩).elim
    | nearby _ _ h h' => have := nearest_unique h3 h; simp at this
    | missing => rfl

variable [DecidableEq T]

theorem isAlreadyAppliedLoop_spec (p : Profile) {l : List T} (hl : l.length < sizeLimit) (cs : List (DiffClump T)) (offset : Int)
    (hw : ∀ c ∈ cs, c.WellFormed) (ho : -(sizeLimit : Int) < offset ∧ offset < sizeLimit) :
    Recognising p l offset cs (isAlreadyAppliedLoop p l false ⟨l, 0⟩ cs offset) := by
  induction cs generalizing offset with
  | nil => exact .done
  | cons c cs ih =>
    have hc := hw c (by simp)
    have hws : ∀ c ∈ cs, c.WellFormed := fun c h => hw c (by simp [h])
    have sa := sideAfter p hc
    have za := hc.sizeAfter
    unfold isAlreadyAppliedLoop clumpIsAlreadyApplied clumpIsAlreadyAppliedNearby
    rw [show (!false) = true from rfl]
    obtain ⟨r1, e1, f1⟩ := willApply_spec sa hc.ctxAfter l (offset := offset)
      (by simp only [sizeLimit, halfWord] at *; omega) (by simp only [sizeLimit, halfWord] at *; omega)
    rw [e1]
    simp only [Outcome.ok_bind]
    cases r1 with
    | some w => exact .here f1 (ih offset hws ho)
    | none =>
      obtain ⟨u1, u2⟩ := nearby_searched p sa hc.ctxAfter za (l := l) (k := 0) (next := cs.head?)
        (nside := cs.head?.map DiffClump.after) rfl (fun n hn => hws n (List.mem_of_head? hn)) ho hl (by decide)
      by_cases hu : p = .debug ∧ Underflow l c.contextLengths c.after (cs.head?.map DiffClump.after) offset
      · simp only [u1 hu]
        exact .crash f1 hu.1 hu.2
      · obtain ⟨r2, e2, f2⟩ := u2 hu
        simp only [e2, Outcome.ok_bind]
        cases r2 with
        | none => exact .missing f1 hu f2
        | some dw =>
          obtain ⟨d, w⟩ := dw
          have hb := offset_bounds hc.ctxAfter za hl (off := offset + d) (w := w) (by
            rw [← Int.add_assoc]; exact f2.2.1)
          simp only
          rw [iadd_ok (by simp only [sizeLimit, halfWord] at *; omega) (by simp only [sizeLimit, halfWord] at *; omega)]
          exact .nearby f1 hu f2 (ih (offset + d) hws hb)

/-- `is_already_applied` answers exactly as described, for every well-formed patch and every file. -/
theorem C82_answer (p : Profile) (cs : List (DiffClump T)) (l : List T) (hw : ∀ c ∈ cs, c.WellFormed)
    (hl : l.length < sizeLimit) (r : Outcome Bool) :
    isAlreadyApplied p cs l false = r ↔ Recognising p l 0 cs r := by
  have h := isAlreadyAppliedLoop_spec p hl cs 0 hw (by simp only [sizeLimit]; omega)
  constructor
  · rintro rfl; exact h
  · intro h'; exact h.unique h'

omit [DecidableEq T] in
theorem Recognising.present {p : Profile} {l : List T} {offset : Int} {cs : List (DiffClump T)} {r : Outcome Bool}
    (h : Recognising p l offset cs r) (hr : r = .ok true) (hw : ∀ c ∈ cs, c.WellFormed) :
    ∀ c ∈ cs, ∃ (r : Nat × Nat) (pos : Int), r.1 ≤ c.contextLengths.1 ∧ r.2 ≤ c.contextLengths.2 ∧
      StandsAt (trim r c.after.items) l pos := by
  have one : ∀ {pos : Int} {c : DiffClump T} {w : WillApply}, c.WellFormed →
      Fits c.after.items c.contextLengths l pos (some w) → ∃ (r : Nat × Nat) (pos : Int), r.1 ≤ c.contextLengths.1 ∧
        r.2 ≤ c.contextLengths.2 ∧ StandsAt (trim r c.after.items) l pos := by
    intro pos c w hc hf
    obtain ⟨h1, h2, -, -⟩ := fits_some_bounds hc.ctxAfter hf
    cases w with
    | cleanly => exact ⟨(0, 0), pos, Nat.zero_le _, Nat.zero_le _, by simp only [trim, Nat.sub_zero, List.take_length, List.drop_zero]; exact hf⟩
    | withReductions r =>
      obtain ⟨-, k, -, -, rfl, h3, -⟩ := hf
      exact ⟨_, _, h1, h2, h3⟩
  induction h with
  | done => simp
  | here h1 _ ih =>
    intro c hc
    rcases List.mem_cons.1 hc with rfl | hc
    · exact one (hw _ (by simp)) h1
    · exact ih hr (fun c h => hw c (by simp [h])) c hc
  | crash => cases hr
  | nearby _ _ h1 _ ih =>
    intro c hc
    rcases List.mem_cons.1 hc with rfl | hc
    · exact one (hw _ (by simp)) h1.2.1
    · exact ih hr (fun c h => hw c (by simp [h])) c hc
  | missing => cases hr

/-- In particular, if the answer is yes, the new lines of every clump, without some of the context, stand in the file. -/
theorem C82_present (p : Profile) (cs : List (DiffClump T)) (l : List T) (hw : ∀ c ∈ cs, c.WellFormed) (hl : l.length < sizeLimit)
    (h : isAlreadyApplied p cs l false = .ok true) :
    ∀ c ∈ cs, ∃ (r : Nat × Nat) (pos : Int), r.1 ≤ c.contextLengths.1 ∧ r.2 ≤ c.contextLengths.2 ∧
      StandsAt (trim r c.after.items) l pos :=
  ((C82_answer p cs l hw hl _).1 h).present rfl hw

end

/-- One would expect: if `is_already_applied` answers yes, `apply_into` does not fail to place a clump. -/
def C82_statement : Prop :=
  ∀ (p : Profile) (before after : List Str) (context : Nat) (cs : List (DiffClump Str)), context ≤ 255 →
    diffClumps p before after context = .ok cs → ∀ (l : List Str), isAlreadyApplied p cs l false = .ok true →
      ∀ (st : Statistics) (out : List UInt8), (applyInto p cs l false).run = (.ok st, out) → st.failed = 0

/-- It fails: `is_already_applied` accepts the new lines of the clumps in any order. -/
theorem C82_refuted : ¬ C82_statement := by
  intro h
  have := h .debug (letters ['a', 'o', 'p', 'm', 'n', 'b', 'q', 'r']) (letters ['a', 'X', 'Y', 'm', 'n', 'b', 'Z', 'W']) 1
    [⟨(1, 1), ⟨0, letters ['a', 'o', 'p', 'm']⟩, ⟨0, letters ['a', 'X', 'Y', 'm']⟩⟩,
     ⟨(1, 0), ⟨5, letters ['b', 'q', 'r']⟩, ⟨5, letters ['b', 'Z', 'W']⟩⟩] (by decide) (by decide +kernel)
    (letters ['b', 'Z', 'W', 'a', 'X', 'Y', 'm']) (by decide +kernel) _ _ (Prod.ext (by decide +kernel : _ = Outcome.ok { alreadyAppliedFuzzy := 1, failed := 1 }) rfl)
  revert this
  decide

/-- Answers of both kinds, and a recognition at a displaced place. -/
example : let cs : List (DiffClump Str) := [⟨(1, 1), ⟨2, letters ['c', 'd']⟩, ⟨2, letters ['c', 'X', 'Y', 'd']⟩⟩]
    isAlreadyApplied .debug cs (letters ['0', 'a', 'b', 'c', 'X', 'Y', 'd', 'e']) false = .ok true ∧
    isAlreadyApplied .debug cs (letters ['0', 'a', 'b', 'c', 'X', 'd', 'e']) false = .ok false := by decide +kernel

/-- What `C82_answer` and `C82_present` say of this patch. -/
example := C82_answer .debug [⟨(1, 1), ⟨2, letters ['c', 'd']⟩, ⟨2, letters ['c', 'X', 'Y', 'd']⟩⟩]
  (letters ['0', 'a', 'b', 'c', 'X', 'Y', 'd', 'e']) (fun c hc => by
    obtain rfl := List.mem_singleton.1 hc
    exact ⟨by decide, by decide, by decide, by decide⟩) (by decide) (.ok true)
example := C82_present .debug [⟨(1, 1), ⟨2, letters ['c', 'd']⟩, ⟨2, letters ['c', 'X', 'Y', 'd']⟩⟩]
  (letters ['0', 'a', 'b', 'c', 'X', 'Y', 'd', 'e']) (fun c hc => by
    obtain rfl := List.mem_singleton.1 hc
    exact ⟨by decide, by decide, by decide, by decide⟩) (by decide) (by decide +kernel)

end PwDiff
