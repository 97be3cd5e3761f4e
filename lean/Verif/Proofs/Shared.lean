import Verif.Model.Shared
import Verif.Proofs.Programs

/-! # Several processes -/

namespace PwDiff

open Sys

namespace Steps

variable {α β : Type}

theorem alone_bind (m : Steps α) (f : α → Steps β) : (m >>= f).alone = m.alone >>= fun a => (f a).alone := by
  show (m.bind f).alone = Sys.bind m.alone _
  induction m with
  | ended r => cases r <;> rfl
  | step op next ih =>
    show Sys.bind op (fun b => ((next b).bind f).alone) = Sys.bind (Sys.bind op fun b => (next b).alone) _
    rw [funext ih]
    funext w
    unfold Sys.bind
    cases h : op w with
    | mk r w' => cases r <;> rfl

theorem alone_op (m : Sys α) : (op m).alone = m := by
  funext w
  show Sys.bind m _ w = _
  unfold Sys.bind
  cases h : m w with
  | mk r w' => cases r <;> rfl

theorem alone_pure (a : α) : (pure a : Steps α).alone = pure a := rfl

theorem alone_exit (n : Nat) : (Steps.exit n : Steps α).alone = Sys.exit n := rfl

theorem alone_ofOutcome (o : Outcome α) : (Steps.ofOutcome o).alone = Sys.ofOutcome o := by cases o <;> rfl

end Steps

open Steps

theorem bind_congr' {α β : Type} {m : Sys α} {f g : α → Sys β} (h : ∀ a, f a = g a) : m >>= f = m >>= g := by
  rw [funext h]

/-- An operation whose result is optional. -/
local macro "opt" : tactic =>
  `(tactic| (rw [alone_bind, alone_op]; refine bind_congr' fun o => ?_; rcases o with _ | r; · rfl))

/-- A computation whose result is optional. -/
local macro "out" : tactic =>
  `(tactic| (dsimp only; rw [alone_bind, alone_ofOutcome]; refine bind_congr' fun o => ?_; rcases o with _ | r; · rfl))

theorem textNew_alone (p : Profile) (b a : Path) (c : Nat) :
    (TextChangeDiff.newSteps p b a c).alone = TextChangeDiff.new p b a c := by
  unfold TextChangeDiff.newSteps TextChangeDiff.new
  opt; out; dsimp only; opt; out; out; rfl

theorem byteNew_alone (p : Profile) (b a : Path) (c : Nat) :
    (ByteChangeDiff.newSteps p b a c).alone = ByteChangeDiff.new p b a c := by
  unfold ByteChangeDiff.newSteps ByteChangeDiff.new
  opt; out; dsimp only; opt; out; out; rfl

theorem linesNew_alone (path : Path) : (PathAndLines.newSteps path).alone = PathAndLines.new path := by
  unfold PathAndLines.newSteps PathAndLines.new
  opt; out; rfl

theorem bytesNew_alone (path : Path) : (PathAndBytes.newSteps path).alone = PathAndBytes.new path := by
  unfold PathAndBytes.newSteps PathAndBytes.new
  opt; out; rfl

theorem diffNew_alone (p : Profile) (b a : Path) (c : Nat) : (Diff.newSteps p b a c).alone = Diff.new p b a c := by
  unfold Diff.newSteps Diff.new
  rw [alone_bind, alone_op]
  refine bind_congr' fun o => ?_
  cases o with
  | true =>
    simp only [if_true]
    rw [alone_bind, alone_op]
    refine bind_congr' fun o => ?_
    cases o with
    | true =>
      simp only [if_true]
      rw [alone_bind, textNew_alone]
      refine bind_congr' fun o => ?_
      cases o with
      | some d => rfl
      | none =>
        dsimp only
        rw [alone_bind, byteNew_alone]
        refine bind_congr' fun o => ?_
        cases o <;> rfl
    | false =>
      simp only [if_false, Bool.false_eq_true]
      rw [alone_bind, linesNew_alone]
      refine bind_congr' fun o => ?_
      cases o with
      | some d => rfl
      | none =>
        dsimp only
        rw [alone_bind, bytesNew_alone]
        refine bind_congr' fun o => ?_
        cases o <;> rfl
  | false =>
    simp only [if_false, Bool.false_eq_true]
    rw [alone_bind, alone_op]
    refine bind_congr' fun o => ?_
    cases o with
    | true =>
      simp only [if_true]
      rw [alone_bind, linesNew_alone]
      refine bind_congr' fun o => ?_
      cases o with
      | some d => rfl
      | none =>
        dsimp only
        rw [alone_bind, bytesNew_alone]
        refine bind_congr' fun o => ?_
        cases o <;> rfl
    | false => rfl

theorem pwDiff_alone (p : Profile) (b a : Path) (c : Nat) : (pwDiffSteps p b a c).alone = pwDiff p b a c := by
  unfold pwDiffSteps pwDiff
  rw [alone_bind, diffNew_alone]
  refine bind_congr' fun o => ?_
  rcases o with _ | d
  · rfl
  dsimp only
  rw [alone_bind, alone_op]
  refine bind_congr' fun o => ?_
  rw [alone_bind, alone_ofOutcome]
  refine bind_congr' fun o => ?_
  cases o <;> rfl

theorem dropTemp_alone (temp : Path) : (dropTempSteps temp).alone = dropTemp temp := by
  unfold dropTempSteps dropTemp
  rw [alone_bind, alone_op]
  rfl

theorem finishPatch_alone {β : Type} (temp path : Path) (o : Outcome β) :
    (finishPatchSteps temp path o).alone = finishPatch temp path o := by
  cases o with
  | ok b =>
    unfold finishPatchSteps finishPatch
    rw [alone_bind, alone_op]
    refine bind_congr' fun o => ?_
    cases o with
    | true => simpa only [if_true] using dropTemp_alone temp
    | false => rfl
  | ioErr => rfl
  | panic =>
    unfold finishPatchSteps finishPatch
    rw [alone_bind, dropTemp_alone]
    rfl
  | diverge => rfl

theorem patchContent_alone {β : Type} (temp path : Path) (m : WM β) :
    (patchContentSteps temp path m).alone = patchContent temp path m := by
  unfold patchContentSteps patchContent
  opt; dsimp only; opt; dsimp only
  rw [alone_bind, alone_op]
  exact bind_congr' fun o => finishPatch_alone temp path o

theorem patchFile_alone {α β : Type} (temp path : Path) (read : Reader → Outcome α) (apply : α → WM β) :
    (patchFileSteps temp path read apply).alone = patchFile temp path read apply := by
  unfold patchFileSteps patchFile
  opt; out
  exact patchContent_alone temp path _

theorem addFile_alone {α : Type} (path : Path) (m : WM α) : (addFileSteps path m).alone = addFile path m := by
  unfold addFileSteps addFile
  opt; dsimp only
  rw [alone_bind, alone_op]
  rfl

theorem deleteFile_alone (path : Path) : (deleteFileSteps path).alone = deleteFile path := by
  unfold deleteFileSteps deleteFile
  rw [alone_bind, alone_op]
  refine bind_congr' fun o => ?_
  cases o <;> rfl

theorem applyDiff_alone (p : Profile) (temp : Path) (rev : Bool) (d : Diff) :
    (applyDiffSteps p temp rev d).alone = applyDiff p temp rev d := by
  cases d with
  | textChange d => exact patchFile_alone ..
  | byteChange d => exact patchFile_alone ..
  | textAdd d => 
    cases rev
    · exact addFile_alone ..
    · exact deleteFile_alone ..
  | textRemove d => 
    cases rev
    · exact deleteFile_alone ..
    · exact addFile_alone ..
  | byteAdd d => 
    cases rev
    · exact addFile_alone ..
    · exact deleteFile_alone ..
  | byteRemove d => 
    cases rev
    · exact deleteFile_alone ..
    · exact addFile_alone ..

theorem pwPatch_alone (p : Profile) (temp patch : Path) (rev : Bool) :
    (pwPatchSteps p temp patch rev).alone = pwPatch p temp patch rev := by
  unfold pwPatchSteps pwPatch
  opt; out
  exact applyDiff_alone p temp rev _

/-! ## Turns -/

namespace Machine

@[simp] theorem turns_nil (m : Machine) : m.turns [] = m := rfl

@[simp] theorem turns_cons (m : Machine) (i : Nat) (s : List Nat) : m.turns (i :: s) = (m.turn i).turns s := rfl

theorem turns_append (m : Machine) (s t : List Nat) : m.turns (s ++ t) = (m.turns s).turns t := List.foldl_append ..

theorem turns_snoc (m : Machine) (s : List Nat) (i : Nat) : m.turns (s ++ [i]) = (m.turns s).turn i := turns_append ..

theorem turn_other (m : Machine) {i k : Nat} (h : k ≠ i) : (m.turn i).proc k = m.proc k := by
  unfold turn
  split
  · rfl
  · split <;> simp [h]

theorem turn_ended (m : Machine) {i : Nat} {r : Except Ended Unit} (h : (m.proc i).rest = .ended r) : m.turn i = m := by
  unfold turn
  rw [h]

theorem turn_ok (m : Machine) {i : Nat} {β : Type} {op : Sys β} {next : β → Steps Unit} (h : (m.proc i).rest = .step op next)
    {b : β} {w : World} (ho : op ⟨m.fs, (m.proc i).faults, (m.proc i).stdout⟩ = (.ok b, w)) :
    m.turn i = ⟨w.fs, fun k => if k = i then ⟨next b, w.faults, w.stdout⟩ else m.proc k⟩ := by
  unfold turn
  rw [h]
  simp only [ho]

theorem turn_error (m : Machine) {i : Nat} {β : Type} {op : Sys β} {next : β → Steps Unit}
    (h : (m.proc i).rest = .step op next) {e : Ended} {w : World}
    (ho : op ⟨m.fs, (m.proc i).faults, (m.proc i).stdout⟩ = (.error e, w)) :
    m.turn i = ⟨w.fs, fun k => if k = i then ⟨.ended (.error e), w.faults, w.stdout⟩ else m.proc k⟩ := by
  unfold turn
  rw [h]
  simp only [ho]

/-- A process that has enough turns in a row does what the program does alone. -/
theorem turns_alone (m : Machine) (i : Nat) : ∃ n, ∀ k, n ≤ k → m.turns (List.replicate k i) =
    let x := (m.proc i).rest.alone ⟨m.fs, (m.proc i).faults, (m.proc i).stdout⟩
    ⟨x.2.fs, fun k => if k = i then ⟨.ended x.1, x.2.faults, x.2.stdout⟩ else m.proc k⟩ := by
  have stay : ∀ (k : Nat) (m : Machine) (r : Except Ended Unit), (m.proc i).rest = .ended r →
      m.turns (List.replicate k i) = m := by
    intro k m r h
    induction k with
    | zero => rfl
    | succ k ih => rw [List.replicate_succ, turns_cons, turn_ended m h, ih]
  obtain ⟨rest, hr⟩ : ∃ rest, (m.proc i).rest = rest := ⟨_, rfl⟩
  induction rest generalizing m with
  | ended r =>
    refine ⟨0, fun k _ => ?_⟩
    rw [stay k m r hr, hr]
    obtain ⟨fs, proc⟩ := m
    have : proc = fun k => if k = i then ⟨.ended r, (proc i).faults, (proc i).stdout⟩ else proc k := by
      funext k
      split
      · subst k
        have hr : (proc i).rest = .ended r := hr
        rw [← hr]
      · rfl
    exact congrArg (Machine.mk fs) this
  | step op next ih =>
    cases ho : op ⟨m.fs, (m.proc i).faults, (m.proc i).stdout⟩ with
    | mk r w =>
      cases r with
      | error e =>
        refine ⟨1, fun k hk => ?_⟩
        obtain ⟨k, rfl⟩ : ∃ k', k = k' + 1 := ⟨k - 1, by omega⟩
        rw [List.replicate_succ, turns_cons, turn_error m hr ho]
        rw [stay k _ (.error e) (by simp), hr]
        simp only [alone, Sys.bind, ho]
      | ok b =>
        have ht := turn_ok m hr ho
        obtain ⟨n, hn⟩ := ih b (m.turn i) (by rw [ht]; simp)
        refine ⟨n + 1, fun k hk => ?_⟩
        obtain ⟨k, rfl⟩ : ∃ k', k = k' + 1 := ⟨k - 1, by omega⟩
        rw [List.replicate_succ, turns_cons, hn k (by omega), ht, hr]
        simp only [alone, Sys.bind, ho, if_true]
        congr 1
        funext k
        split <;> rfl

end Machine

end PwDiff
