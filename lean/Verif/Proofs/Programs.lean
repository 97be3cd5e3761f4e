import Verif.Model.Programs
import Verif.Proofs.Writer
import Verif.Proofs.Text
import Verif.Proofs.ApplyBytes

/-! # Reasoning about the programs -/

namespace PwDiff

namespace Sys

/-- The result and the final state of a process satisfy `Q`. -/
def Sat {α : Type} (m : Sys α) (w : World) (Q : Except Ended α → World → Prop) : Prop := Q (m w).1 (m w).2

variable {α β : Type} {w : World}

theorem Sat.bind {m : Sys α} {f : α → Sys β} {Q : Except Ended β → World → Prop}
    (h : m.Sat w fun r w' => match r with
      | .ok a => (f a).Sat w' Q
      | .error e => Q (.error e) w') : (m >>= f).Sat w Q := by
  show Q (Sys.bind m f w).1 (Sys.bind m f w).2
  unfold Sat at h
  unfold Sys.bind
  cases hm : m w with
  | mk r w' =>
    rw [hm] at h
    cases r with
    | ok a => exact h
    | error e => exact h

theorem Sat.mono {m : Sys α} {Q R : Except Ended α → World → Prop} (h : m.Sat w Q) (hqr : ∀ r w', Q r w' → R r w') :
    m.Sat w R := hqr _ _ h

theorem sat_pure {a : α} {Q : Except Ended α → World → Prop} (h : Q (.ok a) w) : (pure a : Sys α).Sat w Q := h

theorem sat_exit {n : Nat} {Q : Except Ended α → World → Prop} (h : Q (.error (.exited n)) w) : (exit n : Sys α).Sat w Q := h

/-- The state after an operation has begun: some faults are used up. -/
def Later (w w' : World) : Prop := ∃ fl, w' = { w with faults := fl }

theorem sat_operation {normal : World → α × World} {failing : Nat → World → α × World} {killed : Nat → World → World}
    {Q : Except Ended α → World → Prop}
    (h1 : ∀ fl, Q (.ok (normal { w with faults := fl }).1) (normal { w with faults := fl }).2)
    (h2 : ∀ fl n, Q (.ok (failing n { w with faults := fl }).1) (failing n { w with faults := fl }).2)
    (h3 : ∀ fl n, Q (.error .killed) (killed n { w with faults := fl })) : (operation normal failing killed).Sat w Q := by
  unfold Sat operation
  split
  · rename_i hw
    have := h1 []
    rw [← hw] at this
    exact this
  · rename_i fl hw
    exact h1 fl
  · rename_i n fl hw
    exact h2 fl n
  · rename_i n fl hw
    exact h3 fl n

/-- With no faults ahead only the normal case happens. -/
theorem operation_normal {normal : World → α × World} {failing : Nat → World → α × World} {killed : Nat → World → World}
    (h : w.faults = []) : operation normal failing killed w = (.ok (normal w).1, (normal w).2) := by
  unfold operation
  rw [h]

theorem run_eq {m : Sys Unit} {w : World} {Q : Ended → World → Prop}
    (h : m.Sat w fun r w' => match r with
      | .ok _ => Q (.exited 0) w'
      | .error e => Q e w') : Q (m.run w).1 (m.run w).2 := by
  unfold Sat at h
  unfold run
  cases hm : m w with
  | mk r w' =>
    rw [hm] at h
    cases r with
    | ok a => exact h
    | error e => exact h

theorem bind_ok {m : Sys α} {f : α → Sys β} {a : α} {w w' : World} (h : m w = (.ok a, w')) : (m >>= f) w = f a w' := by
  show Sys.bind m f w = _
  unfold Sys.bind
  rw [h]

theorem bind_error {m : Sys α} {f : α → Sys β} {e : Ended} {w w' : World} (h : m w = (.error e, w')) :
    (m >>= f) w = (.error e, w') := by
  show Sys.bind m f w = _
  unfold Sys.bind
  rw [h]

end Sys

namespace FS

@[simp] theorem set_node (fs : FS) (i j : Nat) (x : Option Node) : (fs.set i x).node j = if j = i then x else fs.node j := rfl
@[simp] theorem set_entry (fs : FS) (i : Nat) (x : Option Node) : (fs.set i x).entry = fs.entry := rfl

/-- A path that can be opened names an entry. -/
theorem entry_some_of_content {fs : FS} {path : Path} {r : Reader} (h : fs.contentAt path = some r) :
    (fs.node (fs.entry path)).isSome := by
  unfold contentAt follow followFrom at h
  cases hn : fs.node (fs.entry path) with
  | some x => rfl
  | none => simp [hn] at h

end FS

open Sys

/-- The program does not end with exit status 0. -/
abbrev NotDone (r : Except Ended Unit) : Prop := r ≠ .ok () ∧ r ≠ .error (.exited 0)

/-- The possible effects of patching a file: `t` is the target's entry, `s` the temporary file's. -/
structure Patched (fs : FS) (t s : Nat) (Out : List UInt8 → Prop) (r : Except Ended Unit) (fs' : FS) : Prop where
  entry : fs'.entry = fs.entry
  other : ∀ i, i ≠ t → i ≠ s → fs'.node i = fs.node i
  existing : ∀ i, i ≠ t → fs.node i ≠ none → fs'.node i = fs.node i
  target : (fs'.node t = fs.node t ∧ NotDone r) ∨ ((r = .ok () ∨ r = .error .killed) ∧ ∃ out, Out out ∧ fs'.node t = some (.file out))

theorem Patched.refl {fs : FS} {t s : Nat} {Out : List UInt8 → Prop} {r : Except Ended Unit} (h : NotDone r) :
    Patched fs t s Out r fs := ⟨rfl, fun _ _ _ => rfl, fun _ _ _ => rfl, .inl ⟨rfl, h⟩⟩

/-- Only the temporary file, which did not exist, was changed. -/
theorem Patched.temp {fs fs' : FS} {t s : Nat} {Out : List UInt8 → Prop} {r : Except Ended Unit} (h : NotDone r)
    (he : fs'.entry = fs.entry) (hs : fs.node s = none) (hst : s ≠ t) (hn : ∀ i, i ≠ s → fs'.node i = fs.node i) :
    Patched fs t s Out r fs' :=
  ⟨he, fun i _ h => hn i h, fun i _ h => hn i (by rintro rfl; exact h hs), .inl ⟨hn t (Ne.symm hst), h⟩⟩

theorem Patched.replaced {fs fs' : FS} {t s : Nat} {Out : List UInt8 → Prop} {r : Except Ended Unit}
    (h : r = .ok () ∨ r = .error .killed) (he : fs'.entry = fs.entry) (hs : fs.node s = none) {out : List UInt8} (ho : Out out)
    (ht : fs'.node t = some (.file out)) (hn : ∀ i, i ≠ s → i ≠ t → fs'.node i = fs.node i) : Patched fs t s Out r fs' :=
  ⟨he, fun i h1 h2 => hn i h2 h1, fun i h1 h2 => hn i (by rintro rfl; exact h2 hs) h1, .inr ⟨h, out, ho, ht⟩⟩

theorem sat_dropTemp {temp : Path} {w : World} {Q : Except Ended Unit → World → Prop}
    (h1 : ∀ fl, Q (.ok ()) { w with faults := fl }) (h2 : ∀ fl, Q (.error .killed) { w with faults := fl })
    (h3 : ∀ fl, w.fs.node (w.fs.entry temp) ≠ none → Q (.ok ()) { w with faults := fl, fs := w.fs.set (w.fs.entry temp) none }) :
    (dropTemp temp).Sat w Q := by
  unfold dropTemp
  apply Sat.bind
  unfold removeFile
  apply sat_operation
  · intro fl
    simp only
    split
    · exact h1 fl
    · rename_i h
      exact h3 fl (fun e => h (.inl e))
  · intro fl n
    exact h1 fl
  · intro fl n
    exact h2 fl

theorem sat_createNew {path : Path} {w : World} {Q : Except Ended (Option Nat) → World → Prop}
    (h1 : ∀ fl, Q (.ok none) { w with faults := fl }) (h2 : ∀ fl, Q (.error .killed) { w with faults := fl })
    (h3 : ∀ fl, w.fs.node (w.fs.entry path) = none →
      Q (.ok (some (w.fs.entry path))) { w with faults := fl, fs := w.fs.set (w.fs.entry path) (some (.file [])) }) :
    (createNew path).Sat w Q := by
  unfold createNew
  apply sat_operation
  · intro fl
    cases h : w.fs.node (w.fs.entry path) with
    | some x =>
      simp only [Option.isSome_some, if_true]
      exact h1 fl
    | none =>
      simp only [Option.isSome_none, Bool.false_eq_true, if_false]
      exact h3 fl h
  · intro fl n
    exact h1 fl
  · intro fl n
    exact h2 fl

theorem sat_create {path : Path} {w : World} {Q : Except Ended (Option Nat) → World → Prop} {c : List UInt8}
    (hf : w.fs.node (w.fs.entry path) = some (.file c))
    (h1 : ∀ fl, Q (.ok none) { w with faults := fl }) (h2 : ∀ fl, Q (.error .killed) { w with faults := fl })
    (h3 : ∀ fl, Q (.ok (some (w.fs.entry path))) { w with faults := fl, fs := w.fs.set (w.fs.entry path) (some (.file [])) }) :
    (create path).Sat w Q := by
  unfold create
  apply sat_operation
  · intro fl
    have hfo : w.fs.follow path = some (w.fs.entry path) := by
      unfold FS.follow FS.followFrom
      rw [hf]
    simp only [hfo, hf]
    exact h3 fl
  · intro fl n
    exact h1 fl
  · intro fl n
    exact h2 fl

theorem sat_writeFile {α : Type} {i : Nat} {m : WM α} {w : World} {Q : Except Ended (Outcome α) → World → Prop}
    (h1 : ∀ fl, Q (.ok m.run.1) { w with faults := fl, fs := w.fs.set i (some (.file m.run.2)) })
    (h2 : ∀ fl n, Q (.ok (m ⟨[], some n⟩).1) { w with faults := fl, fs := w.fs.set i (some (.file (m ⟨[], some n⟩).2.out)) })
    (h3 : ∀ fl n, Q (.error .killed) { w with faults := fl, fs := w.fs.set i (some (.file (m.run.2.take n))) }) :
    (writeFile i m).Sat w Q := by
  unfold writeFile
  exact sat_operation h1 h2 h3

theorem sat_rename {src dst : Path} {w : World} {Q : Except Ended Bool → World → Prop}
    (hne : w.fs.entry src ≠ w.fs.entry dst) (hs : w.fs.node (w.fs.entry src) ≠ none)
    (h1 : ∀ fl, Q (.ok false) { w with faults := fl }) (h2 : ∀ fl, Q (.error .killed) { w with faults := fl })
    (h3 : ∀ fl, w.fs.node (w.fs.entry dst) ≠ some .dir → Q (.ok true)
      { w with faults := fl, fs := (w.fs.set (w.fs.entry dst) (w.fs.node (w.fs.entry src))).set (w.fs.entry src) none }) :
    (rename src dst).Sat w Q := by
  unfold rename
  apply sat_operation
  · intro fl
    by_cases hd : w.fs.node (w.fs.entry dst) = some .dir
    · simp only [hd, or_true, if_true]
      exact h1 fl
    · simp only [hs, hd, hne, or_self, if_false]
      exact h3 fl hd
  · intro fl n
    exact h1 fl
  · intro fl n
    exact h2 fl

theorem sat_openFile {path : Path} {w : World} {Q : Except Ended (Option Reader) → World → Prop}
    (h1 : ∀ fl, w.fs.contentAt path = none → Q (.ok none) { w with faults := fl })
    (h2 : ∀ fl, Q (.error .killed) { w with faults := fl })
    (h3 : ∀ fl r, r.fails = true → Q (.ok (some r)) { w with faults := fl })
    (h4 : ∀ fl r, w.fs.contentAt path = some r → Q (.ok (some r)) { w with faults := fl }) : (openFile path).Sat w Q := by
  unfold openFile
  apply sat_operation
  · intro fl
    cases h : w.fs.contentAt path with
    | none => exact h1 fl h
    | some r => exact h4 fl r h
  · intro fl n
    cases h : w.fs.contentAt path with
    | none => exact h1 fl h
    | some r => exact h3 fl _ rfl
  · intro fl n
    exact h2 fl

theorem finishPatch_spec {β : Type} (temp patchable : Path) (o : Outcome β) (fs : FS) (w : World) (Out : List UInt8 → Prop)
    (he : w.fs.entry = fs.entry) (hs : fs.node (fs.entry temp) = none) (hst : fs.entry temp ≠ fs.entry patchable)
    (hn : ∀ i, i ≠ fs.entry temp → w.fs.node i = fs.node i) {out : List UInt8}
    (ht : w.fs.node (fs.entry temp) = some (.file out)) (ho : ∀ b, o = .ok b → Out out) :
    (finishPatch temp patchable o).Sat w fun r w' =>
      Patched fs (fs.entry patchable) (fs.entry temp) Out r w'.fs := by
  cases o with
  | ioErr => exact sat_exit (Patched.temp (by simp [NotDone]) he hs hst hn)
  | diverge =>
    show Patched _ _ _ _ (.error .diverged) w.fs
    exact Patched.temp (by simp [NotDone]) he hs hst hn
  | panic =>
    apply Sat.bind
    apply sat_dropTemp
    · intro fl
      exact sat_exit (Patched.temp (by simp [NotDone]) he hs hst hn)
    · intro fl
      exact Patched.temp (by simp [NotDone]) he hs hst hn
    · intro fl _
      refine sat_exit (Patched.temp (by simp [NotDone]) he hs hst ?_)
      intro i hi
      simp only [he, FS.set_node, hi, if_false]
      exact hn i hi
  | ok b =>
    apply Sat.bind
    apply sat_rename (by rw [he]; exact hst) (by rw [he, ht]; simp)
    · intro fl
      exact sat_exit (Patched.temp (by simp [NotDone]) he hs hst hn)
    · intro fl
      exact Patched.temp (by simp [NotDone]) he hs hst hn
    · intro fl _
      have hrep : ∀ r : Except Ended Unit, r = .ok () ∨ r = .error .killed → ∀ fs' : FS, fs'.entry = fs.entry →
          (∀ i, i ≠ fs.entry temp → fs'.node i = if i = fs.entry patchable then some (.file out) else w.fs.node i) →
          Patched fs (fs.entry patchable) (fs.entry temp) Out r fs' := by
        intro r hr fs' he' hn'
        refine Patched.replaced hr he' hs (ho b rfl) ?_ ?_
        · rw [hn' _ (Ne.symm hst), if_pos rfl]
        · intro i h1 h2
          rw [hn' i h1, if_neg h2, hn i h1]
      simp only [if_true]
      apply sat_dropTemp
      · intro fl'
        refine hrep _ (.inl rfl) _ he ?_
        intro i hi
        simp [he, ht, hi]
      · intro fl'
        refine hrep _ (.inr rfl) _ he ?_
        intro i hi
        simp [he, ht, hi]
      · intro fl' _
        refine hrep _ (.inl rfl) _ he ?_
        intro i hi
        simp [he, ht, hi]

/-- A failing writer: success means that everything was written. -/
theorem norm_limited {β : Type} {m : WM β} (h : WM.Norm m) (n : Nat) {b : β} (hb : (m ⟨[], some n⟩).1 = .ok b) :
    m.run = (.ok b, (m ⟨[], some n⟩).2.out) := by
  obtain ⟨out, o, rfl⟩ := h
  rw [WM.run_emit]
  rw [WM.emit_apply] at hb ⊢
  simp only at hb ⊢
  split at hb
  · rename_i hle
    simp only [hle, if_true]
    simp only at hb
    rw [hb]
    simp
  · simp at hb

theorem patchContent_spec {β : Type} (temp patchable : Path) (m : WM β) (hm : WM.Norm m) (w : World)
    (hex : w.fs.node (w.fs.entry patchable) ≠ none) :
    (patchContent temp patchable m).Sat w fun r w' =>
      Patched w.fs (w.fs.entry patchable) (w.fs.entry temp) (fun out => ∃ b, m.run = (.ok b, out)) r w'.fs := by
  unfold patchContent
  apply Sat.bind
  apply sat_createNew
  · intro fl
    exact sat_exit (Patched.refl (by simp [NotDone]))
  · intro fl
    exact Patched.refl (by simp [NotDone])
  · intro fl hs
    have hst : w.fs.entry temp ≠ w.fs.entry patchable := by
      intro e
      rw [e] at hs
      exact hex hs
    apply Sat.bind
    apply sat_create (c := []) (by simp)
    · intro fl2
      refine sat_exit (Patched.temp (by simp [NotDone]) rfl hs hst ?_)
      intro i hi
      simp [hi]
    · intro fl2
      refine Patched.temp (by simp [NotDone]) rfl hs hst ?_
      intro i hi
      simp [hi]
    · intro fl2
      apply Sat.bind
      apply sat_writeFile
      · intro fl3
        refine finishPatch_spec temp patchable _ w.fs _ _ rfl hs hst ?_ (out := m.run.2) ?_ ?_
        · intro i hi
          simp [hi]
        · simp
        · intro b hb
          exact ⟨b, by rw [← hb]⟩
      · intro fl3 n
        refine finishPatch_spec temp patchable _ w.fs _ _ rfl hs hst ?_ (out := (m ⟨[], some n⟩).2.out) ?_ ?_
        · intro i hi
          simp [hi]
        · simp
        · intro b hb
          exact ⟨b, norm_limited hm n hb⟩
      · intro fl3 n
        refine Patched.temp (by simp [NotDone]) rfl hs hst ?_
        intro i hi
        simp [hi]

theorem Patched.weaken {fs fs' : FS} {t s : Nat} {P Q : List UInt8 → Prop} {r : Except Ended Unit} (h : Patched fs t s P r fs')
    (hpq : ∀ out, P out → Q out) : Patched fs t s Q r fs' :=
  ⟨h.entry, h.other, h.existing, h.target.imp_right fun ⟨h1, out, h2, h3⟩ => ⟨h1, out, hpq out h2, h3⟩⟩

theorem patchFile_spec {α β : Type} (temp patchable : Path) (read : Reader → Outcome α) (apply : α → WM β) (w : World)
    (hread : ∀ r a, read r = .ok a → r.fails = false) (hnorm : ∀ a, WM.Norm (apply a)) :
    (patchFile temp patchable read apply).Sat w fun r w' =>
      Patched w.fs (w.fs.entry patchable) (w.fs.entry temp)
        (fun out => ∃ rd a b, w.fs.contentAt patchable = some rd ∧ read rd = .ok a ∧ (apply a).run = (.ok b, out)) r w'.fs := by
  have rest : ∀ (rd : Reader) fl, (rd.fails = false → w.fs.contentAt patchable = some rd) →
      (do
        let some content ← ofOutcome (read rd) | exit 1
        patchContent temp patchable (apply content) : Sys Unit).Sat { w with faults := fl } fun r w' =>
      Patched w.fs (w.fs.entry patchable) (w.fs.entry temp)
        (fun out => ∃ rd a b, w.fs.contentAt patchable = some rd ∧ read rd = .ok a ∧ (apply a).run = (.ok b, out)) r w'.fs := by
    intro rd fl ho
    apply Sat.bind
    cases hr : read rd with
    | ioErr =>
      show Patched _ _ _ _ (.error _) w.fs
      exact Patched.refl (by simp [NotDone])
    | panic =>
      show Patched _ _ _ _ (.error _) w.fs
      exact Patched.refl (by simp [NotDone])
    | diverge =>
      show Patched _ _ _ _ (.error _) w.fs
      exact Patched.refl (by simp [NotDone])
    | ok a =>
      have hc := ho (hread rd a hr)
      have hex : w.fs.node (w.fs.entry patchable) ≠ none := by
        have := FS.entry_some_of_content hc
        intro e
        rw [e] at this
        simp at this
      exact (patchContent_spec temp patchable (apply a) (hnorm a) { w with faults := fl } hex).mono
        fun r w' h => h.weaken fun out ⟨b, hb⟩ => ⟨rd, a, b, hc, hr, hb⟩
  unfold patchFile
  apply Sat.bind
  apply sat_openFile
  · intro fl _
    exact sat_exit (Patched.refl (by simp [NotDone]))
  · intro fl
    exact Patched.refl (by simp [NotDone])
  · intro fl r hr
    exact rest r fl (by simp [hr])
  · intro fl r hr
    exact rest r fl (fun _ => hr)

end PwDiff
