import Verif.Proofs.Together

/-! # A process among others: what it can have seen, and what it leaves as it was -/

namespace PwDiff

open Sys Steps

namespace Steps

/-- Whatever the others do: if each operation finds a file system with property `H`, then `Q` holds when the process ends. -/
def Among (H : FS → Prop) {α : Type} : Steps α → List UInt8 → (Except Ended α → List UInt8 → Prop) → Prop
  | ended r, so, Q => Q r so
  | step op next, so, Q => ∀ fs fl, H fs → match op ⟨fs, fl, so⟩ with
    | (.ok b, w) => Among H (next b) w.stdout Q
    | (.error e, w) => Q (.error e) w.stdout

variable {H : FS → Prop} {α β : Type} {so : List UInt8}

theorem Among.bind {s : Steps α} {f : α → Steps β} {Q : Except Ended β → List UInt8 → Prop}
    (h : Among H s so fun r so' => match r with
      | .ok a => Among H (f a) so' Q
      | .error e => Q (.error e) so') : Among H (s >>= f) so Q := by
  show Among H (Steps.bind s f) so Q
  induction s generalizing so with
  | ended r => cases r <;> exact h
  | step op next ih =>
    intro fs fl hfs
    have := h fs fl hfs
    split
    · next e => rw [e] at this; exact ih _ this
    · next e => rw [e] at this; exact this

theorem Among.mono {s : Steps α} {Q R : Except Ended α → List UInt8 → Prop} (h : Among H s so Q) (hqr : ∀ r so, Q r so → R r so) :
    Among H s so R := by
  induction s generalizing so with
  | ended r => exact hqr _ _ h
  | step op next ih =>
    intro fs fl hfs
    have := h fs fl hfs
    split
    · next e => rw [e] at this; exact ih _ this
    · next e => rw [e] at this; exact hqr _ _ this

theorem among_ok {a : α} {Q : Except Ended α → List UInt8 → Prop} (h : Q (.ok a) so) : Among H (pure a : Steps α) so Q := h

/-- A single operation. -/
theorem among_op {m : Sys α} {Q : Except Ended α → List UInt8 → Prop}
    (h : ∀ fs fl, H fs → m.Sat ⟨fs, fl, so⟩ fun r w => Q r w.stdout) : Among H (op m) so Q := by
  intro fs fl hfs
  have := h fs fl hfs
  unfold Sat at this
  split
  · next e => rw [e] at this; exact this
  · next e => rw [e] at this; exact this

theorem among_outcome {o : Outcome α} {Q : Except Ended (Option α) → List UInt8 → Prop} (h1 : ∀ a, o = .ok a → Q (.ok (some a)) so)
    (h2 : Q (.ok none) so) (h3 : ∀ e, e ≠ .exited 0 → Q (.error e) so) : Among H (Steps.ofOutcome o) so Q := by
  cases o with
  | ok a => exact h1 a rfl
  | ioErr => exact h2
  | panic => exact h3 _ (by simp)
  | diverge => exact h3 _ (by simp)

/-- Never changes the file system. -/
def ReadOnly {α : Type} : Steps α → Prop
  | ended _ => True
  | step op next => (∀ w, (op w).2.fs = w.fs) ∧ ∀ b, ReadOnly (next b)

theorem ReadOnly.bind {s : Steps α} {f : α → Steps β} (h : ReadOnly s) (hf : ∀ a, ReadOnly (f a)) : ReadOnly (s >>= f) := by
  show ReadOnly (Steps.bind s f)
  induction s with
  | ended r =>
    cases r with
    | ok a => exact hf a
    | error e => exact trivial
  | step op next ih => exact ⟨h.1, fun b => ih b (h.2 b)⟩

theorem readOnly_op {m : Sys α} (h : ∀ w, (m w).2.fs = w.fs) : ReadOnly (op m) := ⟨h, fun _ => trivial⟩

theorem readOnly_outcome (o : Outcome α) : ReadOnly (Steps.ofOutcome o) := by cases o <;> exact trivial

end Steps

namespace Machine

/-- What holds of a process that has ended, if the operations have found `H`. -/
theorem among_turns {H : FS → Prop} {i : Nat} {Q : Except Ended Unit → List UInt8 → Prop} (order : List Nat) (m : Machine)
    (hH : ∀ k, H (m.turns (order.take k)).fs) (h : Among H (m.proc i).rest (m.proc i).stdout Q) :
    Among H ((m.turns order).proc i).rest ((m.turns order).proc i).stdout Q := by
  induction order generalizing m with
  | nil => exact h
  | cons k order ih =>
    rw [turns_cons]
    refine ih _ (fun n => by have := hH (n + 1); rwa [List.take_succ_cons, turns_cons] at this) ?_
    by_cases hk : k = i
    · subst hk
      cases hr : (m.proc k).rest with
      | ended r => rw [turn_ended m hr]; exact h
      | step op next =>
        rw [hr] at h
        have := h m.fs (m.proc k).faults (hH 0)
        cases ho : op ⟨m.fs, (m.proc k).faults, (m.proc k).stdout⟩ with
        | mk r w =>
          rw [ho] at this
          cases r with
          | ok b => rw [turn_ok m hr ho]; simpa using this
          | error e => rw [turn_error m hr ho]; simpa [Among] using this
    · rw [turn_other m (Ne.symm hk)]
      exact h

/-- Processes that only read make no difference to the others. -/
theorem turns_readers (n : Nat) (order : List Nat) (m m' : Machine) (hfs : m.fs = m'.fs) (hp : ∀ i, i < n → m.proc i = m'.proc i)
    (hm : ∀ i, n ≤ i → ReadOnly (m.proc i).rest) (hm' : ∀ i, n ≤ i → ReadOnly (m'.proc i).rest) :
    (m.turns order).fs = (m'.turns order).fs ∧ ∀ i, i < n → (m.turns order).proc i = (m'.turns order).proc i := by
  induction order generalizing m m' with
  | nil => exact ⟨hfs, hp⟩
  | cons k order ih =>
    rw [turns_cons, turns_cons]
    have quiet : ∀ m : Machine, ReadOnly (m.proc k).rest → (m.turn k).fs = m.fs ∧ ReadOnly ((m.turn k).proc k).rest := by
      intro m h
      cases hr : (m.proc k).rest with
      | ended r => rw [turn_ended m hr]; exact ⟨rfl, h⟩
      | step op next =>
        rw [hr] at h
        cases ho : op ⟨m.fs, (m.proc k).faults, (m.proc k).stdout⟩ with
        | mk r w =>
          have hw := h.1 ⟨m.fs, (m.proc k).faults, (m.proc k).stdout⟩
          rw [ho] at hw
          cases r with
          | ok b => rw [turn_ok m hr ho]; exact ⟨hw, by simpa using h.2 b⟩
          | error e => rw [turn_error m hr ho]; exact ⟨hw, by simp [ReadOnly]⟩
    have keep : ∀ m : Machine, (∀ i, n ≤ i → ReadOnly (m.proc i).rest) → ∀ i, n ≤ i → ReadOnly ((m.turn k).proc i).rest := by
      intro m h i hi
      by_cases hki : i = k
      · subst hki
        exact (quiet m (h i hi)).2
      · rw [turn_other m hki]
        exact h i hi
    by_cases hk : k < n
    · have e : (m.turn k).fs = (m'.turn k).fs ∧ (m.turn k).proc k = (m'.turn k).proc k := by
        unfold turn
        rw [← hp k hk, ← hfs]
        split
        · exact ⟨hfs, hp k hk⟩
        · split <;> simp
      refine ih _ _ e.1 (fun i hi => ?_) (keep m hm) (keep m' hm')
      by_cases hki : i = k
      · subst hki; exact e.2
      · rw [turn_other m hki, turn_other m' hki]
        exact hp i hi
    · have hk : n ≤ k := by omega
      refine ih _ _ ?_ (fun i hi => ?_) (keep m hm) (keep m' hm')
      · rw [(quiet m (hm k hk)).1, (quiet m' (hm' k hk)).1]
        exact hfs
      · have hki : i ≠ k := by omega
        rw [turn_other m hki, turn_other m' hki]
        exact hp i hi

end Machine

/-! ## `pw_diff` -/

theorem fs_operation {α : Type} {normal : World → α × World} {failing : Nat → World → α × World} {killed : Nat → World → World}
    (h1 : ∀ w, (normal w).2.fs = w.fs) (h2 : ∀ n w, (failing n w).2.fs = w.fs) (h3 : ∀ n w, (killed n w).fs = w.fs) (w : World) :
    (operation normal failing killed w).2.fs = w.fs := by
  unfold operation
  split
  · exact h1 _
  · exact h1 _
  · exact h2 _ _
  · exact h3 _ _

theorem readOnly_pwDiff (p : Profile) (before after : Path) (context : Nat) : ReadOnly (pwDiffSteps p before after context) := by
  have hopen : ∀ path, ReadOnly (op (openFile path)) := fun path =>
    readOnly_op (fs_operation (fun _ => rfl) (fun _ _ => rfl) (fun _ _ => rfl))
  have hex : ∀ path, ReadOnly (op (pathExists path)) := fun path =>
    readOnly_op (fs_operation (fun _ => rfl) (fun _ _ => rfl) (fun _ _ => rfl))
  have hout : ∀ m, ReadOnly (op (writeStdout m)) := fun m =>
    readOnly_op (fs_operation (fun _ => rfl) (fun _ _ => rfl) (fun _ _ => rfl))
  have opt : ∀ {α β : Type} {s : Steps (Option α)} {f : Option α → Steps β}, ReadOnly s → ReadOnly (f none) → (∀ a, ReadOnly (f (some a))) →
      ReadOnly (s >>= f) := by
    intro α β s f h1 h2 h3
    refine h1.bind fun a => ?_
    cases a with
    | none => exact h2
    | some a => exact h3 a
  have lines : ∀ path, ReadOnly (PathAndLines.newSteps path) := fun path =>
    opt (hopen _) trivial fun _ => opt (readOnly_outcome _) trivial fun _ => trivial
  have bytes : ∀ path, ReadOnly (PathAndBytes.newSteps path) := fun path =>
    opt (hopen _) trivial fun _ => opt (readOnly_outcome _) trivial fun _ => trivial
  have text : ReadOnly (TextChangeDiff.newSteps p before after context) :=
    opt (hopen _) trivial fun _ => opt (readOnly_outcome _) trivial fun _ => opt (hopen _) trivial fun _ =>
      opt (readOnly_outcome _) trivial fun _ => opt (readOnly_outcome _) trivial fun _ => trivial
  have byte : ReadOnly (ByteChangeDiff.newSteps p before after context) :=
    opt (hopen _) trivial fun _ => opt (readOnly_outcome _) trivial fun _ => opt (hopen _) trivial fun _ =>
      opt (readOnly_outcome _) trivial fun _ => opt (readOnly_outcome _) trivial fun _ => trivial
  refine opt ?_ trivial fun d => (hout _).bind fun o => opt (readOnly_outcome o) trivial fun _ => trivial
  refine (hex _).bind fun b => ?_
  cases b with
  | true =>
    refine (hex _).bind fun a => ?_
    cases a with
    | true => exact opt text (opt byte trivial fun _ => trivial) fun _ => trivial
    | false => exact opt (lines _) (opt (bytes _) trivial fun _ => trivial) fun _ => trivial
  | false =>
    refine (hex _).bind fun a => ?_
    cases a with
    | true => exact opt (lines _) (opt (bytes _) trivial fun _ => trivial) fun _ => trivial
    | false => exact trivial

end PwDiff
