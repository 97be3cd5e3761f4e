import Verif.Proofs.Profiles
import Verif.Proofs.UnifiedText
import Verif.Props.Fuzzy
import Verif.Props.Bytes

/-! # C98: the build profile

What is found out with a debug build (`cargo test`) holds for a release build, unless the debug build panics. -/

namespace PwDiff

open Sys

/-- The full statement of C98: a patch does the same in both builds. -/
def C98_statement : Prop :=
  ∀ (before after l : List Str) (context : Nat) (cs : List (DiffClump Str)), context ≤ 255 →
    diffClumps .debug before after context = .ok cs → (applyInto .debug cs l false).run = (applyInto .release cs l false).run

/-- The patch that removes two lines between context. -/
def shortClump : DiffClump Str := ⟨(1, 1), ⟨0, letters ['a', 'b', 'c', 'd']⟩, ⟨0, letters ['a', 'd']⟩⟩

/-- It fails: on a file with fewer lines than the patch removes, the debug build panics and the release build reports a
clump that failed. -/
theorem C98_refuted : ¬ C98_statement := by
  intro h
  have := h (letters ['a', 'b', 'c', 'd']) (letters ['a', 'd']) (letters ['z']) 1 [shortClump] (by decide)
    (by decide +kernel)
  exact absurd this (by decide +kernel)

example : (applyInto .debug [shortClump] (letters ['z']) false).run.1 = .panic ∧
    (applyInto .release [shortClump] (letters ['z']) false).run.1 = .ok { failed := 1 } := by decide +kernel

/-- What holds, for any clumps, any file and any writer: the debug build panics, or the release build does the same.  So it
is for `is_already_applied`. -/
theorem C98_partial {T : Type} [DecidableEq T] [Item T] (cs : List (DiffClump T)) (l : List T) (reverse : Bool) (w : Writer) :
    ((applyInto .debug cs l reverse w).1 = .panic ∨ applyInto .debug cs l reverse w = applyInto .release cs l reverse w) ∧
    (isAlreadyApplied .debug cs l reverse = .panic ∨
      isAlreadyApplied .debug cs l reverse = isAlreadyApplied .release cs l reverse) :=
  ⟨(applyInto_below cs l reverse).at_ w, below_iff.1 (isAlreadyApplied_below cs l reverse)⟩

/-- The same for clumps of unified diffs, read and applied. -/
theorem C98_unified (nd : Digits) (lines : List Str) (startIndex : Nat) (cs : List UnifiedDiffClump) (l : List Str)
    (reverse : Bool) (w : Writer) :
    (getFromAt .debug nd lines startIndex = .panic ∨
      getFromAt .debug nd lines startIndex = getFromAt .release nd lines startIndex) ∧
    ((applyInto .debug cs l reverse w).1 = .panic ∨ applyInto .debug cs l reverse w = applyInto .release cs l reverse w) :=
  ⟨below_iff.1 (getFromAt_below nd lines startIndex), (applyInto_below cs l reverse).at_ w⟩

theorem weight_swap {T : Type} (cs : List (DiffClump T)) : weight (cs.map DiffClump.swap) = weight cs := by
  induction cs with
  | nil => rfl
  | cons c cs ih =>
    simp only [List.map_cons, weight, ih, DiffClump.swap]
    omega

/-- Byte patches do the same in both builds, on any writer (sizes fit into a machine word). -/
theorem C98_bytes (cs : List (DiffClump UInt8)) (l : List UInt8) (reverse : Bool) (hs : l.length + weight cs < wordSize)
    (w : Writer) : byteApplyInto .debug cs l reverse w = byteApplyInto .release cs l reverse w := by
  have key : ∀ cs : List (DiffClump UInt8), l.length + weight cs < wordSize →
      byteApplyInto .debug cs l false = byteApplyInto .release cs l false := by
    intro cs hs
    obtain ⟨out, r, e, -⟩ := byteApplyInto_refines .debug l cs hs
    obtain ⟨out', r', e', h'⟩ := byteApplyInto_refines .release l cs hs
    have := (C60_refines .debug l cs hs out' r').2 h'
    rw [e, WM.run_emit] at this
    cases this
    rw [e, e']
  cases reverse with
  | false => rw [key cs hs]
  | true =>
    have := key (cs.map DiffClump.swap) (by rw [weight_swap]; exact hs)
    rw [byteApply_swap, byteApply_swap] at this
    exact congrFun this w

example := C98_bytes [⟨(0, 0), ⟨0, [1]⟩, ⟨0, [9, 9]⟩⟩, ⟨(0, 0), ⟨5, [7]⟩, ⟨6, []⟩⟩] [1, 2, 3] false (by decide) ⟨[], some 3⟩

/-- Diffs are the same in both builds, whatever is compared. -/
theorem C98_diff {T : Type} [DecidableEq T] [Item T] [LawfulItem T] (before after : List T) (context : Nat) :
    diffClumps .debug before after context = diffClumps .release before after context :=
  diffClumps_profile _ _ _ _ _

/-- So are the hunks of unified diffs. -/
theorem C98_unifiedDiff (before after : List Str) (context : Nat) :
    unifiedClumps .debug before after context = unifiedClumps .release before after context := by
  obtain ⟨changes, ccs, e1, e2, -, e3⟩ := unifiedClumps_eq .debug before after context
  obtain ⟨changes', ccs', e1', e2', -, e3'⟩ := unifiedClumps_eq .release before after context
  rw [changesOf_profile .debug .release] at e1
  obtain rfl := Outcome.ok_inj (e1.symm.trans e1')
  obtain rfl := Outcome.ok_inj (e2.symm.trans e2')
  rw [e3, e3']

/-- `pw_diff` does the same in both builds, whatever happens to it. -/
theorem C98_pwDiff (before after : Path) (context : Nat) (w : World) :
    (pwDiff .debug before after context).run w = (pwDiff .release before after context).run w := by
  unfold pwDiff
  rw [diffNew_profile .debug .release]

/-- `pw_patch` does the same in both builds, unless the debug build panics (exit status 101) or it is killed. -/
theorem C98_pwPatch (temp patch : Path) (reverse : Bool) (w : World) (hw : ∀ n, Fault.kill n ∉ w.faults) :
    ((pwPatch .debug temp patch reverse).run w).1 = .exited 101 ∨
      (pwPatch .debug temp patch reverse).run w = (pwPatch .release temp patch reverse).run w := by
  unfold Sys.run
  rcases (pwPatch_below temp patch reverse).at_ w ⟨hw⟩ with h | h
  · left
    revert h
    rcases pwPatch .debug temp patch reverse w with ⟨_ | _, w'⟩
    · intro h; simpa using h
    · intro h; simp at h
  · right
    rw [h]

/-- A case: the clump of the patch above applies at another place, in both builds. -/
example : (applyInto .debug [shortClump] (letters ['y', 'a', 'b', 'c', 'd', 'z']) false).run =
      (.ok { fuzzy := 1 }, bytesOf (letters ['y', 'a', 'd', 'z'])) ∧
    (applyInto .release [shortClump] (letters ['y', 'a', 'b', 'c', 'd', 'z']) false).run =
      (.ok { fuzzy := 1 }, bytesOf (letters ['y', 'a', 'd', 'z'])) := by decide +kernel

end PwDiff
