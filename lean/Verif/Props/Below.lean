import Verif.Props.Express
import Verif.Props.Inodes

/-! # C123: where pw_patch changes files -/

namespace PwDiff

/-- A path that does not lead out of the current directory: it does not begin with `/` and `..` is not one of its components. -/
def StaysBelow (path : Path) : Prop :=
  path.head? ≠ some 47 ∧ ∀ a b : Path, path = a ++ [46, 46] ++ b → (a = [] ∨ a.getLast? = some 47) → (b = [] ∨ b.head? = some 47) → False

/-- What one may expect: `pw_patch`, run in some directory, changes no files elsewhere. -/
def C123_statement : Prop :=
  ∀ (p : Profile) (temp patch : Path) (rev : Bool) (w : World), StaysBelow temp →
    let r := (pwPatch p temp patch rev).run w
    ∀ i, r.2.fs.node i ≠ w.fs.node i → ∃ path, StaysBelow path ∧ w.fs.entry path = i

/-- What holds, whatever operation fails: what is changed is named in the patch (or the temporary file). So the expectation is true
of patches whose path does not lead out of the directory; but nothing looks at the path (see `C121_program`, where it is any path). -/
theorem C123_partial (p : Profile) (temp patch : Path) (rev : Bool) (w : World) (ht : StaysBelow temp)
    (hp : ∀ d, HoldsDiff w.fs patch d → StaysBelow d.about) :
    let r := (pwPatch p temp patch rev).run w
    ∀ i, r.2.fs.node i ≠ w.fs.node i → ∃ path, StaysBelow path ∧ w.fs.entry path = i := by
  intro r i hi
  by_cases hd : ∃ d, HoldsDiff w.fs patch d
  · obtain ⟨d, hd⟩ := hd
    have habout := hp d hd
    by_cases h1 : w.fs.entry d.about = i
    · exact ⟨_, habout, h1⟩
    by_cases h2 : w.fs.entry temp = i
    · exact ⟨_, ht, h2⟩
    exfalso
    refine hi ?_
    have change : d.changed = some d.about → r.2.fs.node i = w.fs.node i := fun h =>
      (C46_atomic p temp patch d.about rev w d hd h).2.1 i (Ne.symm h1) (Ne.symm h2)
    have create : ∀ content, d.creates rev = some (d.about, content) → r.2.fs.node i = w.fs.node i := fun content h =>
      (C47_create p temp patch d.about rev w d hd content h).2.1 i (Ne.symm h1)
    have delete : d.deletes rev = some d.about → r.2.fs.node i = w.fs.node i := fun h =>
      (C47_delete p temp patch d.about rev w d hd h).2.1 i (Ne.symm h1)
    cases d with
    | textChange d => exact change rfl
    | byteChange d => exact change rfl
    | textAdd d => cases rev; exact create _ rfl; exact delete rfl
    | byteAdd d => cases rev; exact create _ rfl; exact delete rfl
    | textRemove d => cases rev; exact delete rfl; exact create _ rfl
    | byteRemove d => cases rev; exact delete rfl; exact create _ rfl
  · exfalso
    have := (C46_unreadable p temp patch rev w fun r hr d h => hd ⟨d, r, hr, h⟩).2.1
    exact hi (by rw [show r.2.fs = w.fs from this])

/-- The path `../x`. -/
def dotDotX : Path := [46, 46, 47, 120]

theorem dotDotX_leads_out : ¬ StaysBelow dotDotX := fun h => h.2 [] [47, 120] rfl (.inl rfl) (.inr rfl)

/-- The expectation is false: a patch with the path `../x` changes this file. -/
theorem C123_refuted : ¬ C123_statement := by
  intro h
  let w : World := ⟨FS.ofFiles [(dotDotX, [1])], [], []⟩
  obtain ⟨content, hrun⟩ := C121_program .debug [84] [67] dotDotX w rfl ⟨"../x".toList, by decide +kernel⟩ (old := [1]) (new := [2])
    rfl (by decide) (by decide) rfl (by decide +kernel) (by decide +kernel)
  have hT : StaysBelow [84] := by
    refine ⟨by decide, fun a b h _ _ => ?_⟩
    have := congrArg List.length h
    simp only [List.length_append, List.length_cons, List.length_nil] at this
    omega
  obtain ⟨path, hb, he⟩ := h .debug [84] [67] false _ hT 0 (by
    rw [hrun]
    show _ ≠ some (Node.file [1])
    simp [w, FS.ofFiles, dotDotX])
  have he : (FS.ofFiles [(dotDotX, [1])]).entry path = 0 := he
  simp only [FS.ofFiles] at he
  split at he
  · cases he
  · rw [List.findIdx_cons] at he
    by_cases hx : dotDotX = path
    · subst hx
      exact dotDotX_leads_out hb
    · simp [hx] at he

/-- Absolute paths lead out too; `a/..c` does not. -/
example : ¬ StaysBelow [47, 120] := fun h => h.1 rfl
example : StaysBelow [97, 47, 46, 46, 99] := by
  refine ⟨by decide, fun a b h ha hb => ?_⟩
  match a, h with
  | [], h => cases h
  | [_], h => simp at h
  | [_, _], h =>
    simp at h
    obtain ⟨-, -, rfl⟩ := h
    simp at hb
  | [_, _, _], h => simp at h
  | _ :: _ :: _ :: _ :: _, h =>
    have := congrArg List.length h
    simp at this
    omega

end PwDiff
