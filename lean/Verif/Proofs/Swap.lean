import Verif.Proofs.Apply

/-! # Reversing a patch is swapping the two sides of its clumps -/

namespace PwDiff

open ChangeBasics TextClump

variable {T : Type}

/-- The clump with its two sides exchanged. -/
def DiffClump.swap (c : DiffClump T) : DiffClump T := ⟨c.contextLengths, c.after, c.before⟩

namespace Swap

variable (p : Profile) (c : DiffClump T) (rev : Bool)

theorem start : beforeStart c.swap rev = beforeStart c (!rev) := by cases rev <;> rfl
theorem fin : beforeEnd p c.swap rev = beforeEnd p c (!rev) := by cases rev <;> rfl
theorem length : beforeLength p c.swap rev = beforeLength p c (!rev) := by cases rev <;> rfl
theorem context : contextLengths c.swap = contextLengths c := rfl
theorem lines (r : Option Range) : beforeLines p c.swap r rev = beforeLines p c r (!rev) := by cases rev <;> rfl

theorem range (r : Option (Nat × Nat)) : beforeRange p c.swap r rev = beforeRange p c r (!rev) := by
  cases rev <;> rfl
theorem myRange (r : Option (Nat × Nat)) : myBeforeRange p c.swap r rev = myBeforeRange p c r (!rev) := by
  cases rev <;> rfl
theorem adjStart (o : Int) (r : Option (Nat × Nat)) :
    beforeAdjustedStart p c.swap o r rev = beforeAdjustedStart p c o r (!rev) := by cases rev <;> rfl
theorem adjLength (r : Option (Nat × Nat)) :
    beforeAdjustedLength p c.swap r rev = beforeAdjustedLength p c r (!rev) := by cases rev <;> rfl

theorem isSub [DecidableEq T] (l : List T) (pos : Nat) (r : Option (Nat × Nat)) :
    beforeIsSubsequenceInAt p c.swap l pos r rev = beforeIsSubsequenceInAt p c l pos r (!rev) := by cases rev <;> rfl

theorem write [Item T] (r : Option (Nat × Nat)) : beforeWriteInto p c.swap r rev = beforeWriteInto p c r (!rev) := by
  cases rev <;> rfl

theorem reductionLoop' [DecidableEq T] (l : List T) (start : Int) (ks : List Nat) :
    reductionLoop p c.swap l start rev ks = reductionLoop p c l start (!rev) ks := by
  induction ks with
  | nil => rfl
  | cons k ks ih => simp only [reductionLoop, ih, isSub, context]

theorem willApply' [DecidableEq T] (l : List T) (o : Int) : willApply p c.swap l o rev = willApply p c l o (!rev) := by
  simp only [willApply, reductionLoop', isSub, adjStart, context]

theorem applyInto' [Item T] (pd : ConsumableSeq T) (o : Int) (r : Option (Nat × Nat)) :
    clumpApplyInto p c.swap pd o r rev = clumpApplyInto p c pd o r (!rev) := by
  simp only [clumpApplyInto, adjStart, adjLength, afterWriteInto, write]

theorem backward [DecidableEq T] (pd : ConsumableSeq T) (o i : Int) (b : Bool) :
    nearbyBackward p c.swap pd o rev i b = nearbyBackward p c pd o (!rev) i b := by
  simp only [nearbyBackward, adjStart, willApply']

theorem forward [DecidableEq T] (pd : ConsumableSeq T) (n : Nat) (o i : Int) (b : Bool) :
    nearbyForward p c.swap pd n o rev i b = nearbyForward p c pd n o (!rev) i b := by
  simp only [nearbyForward, adjStart, willApply']

theorem loop [DecidableEq T] (pd : ConsumableSeq T) (n : Nat) (o : Int) (fuel : Nat) (i : Int) (b f : Bool) :
    nearbyLoop p c.swap pd n o rev fuel i b f = nearbyLoop p c pd n o (!rev) fuel i b f := by
  induction fuel generalizing i b f with
  | zero => rfl
  | succ fuel ih => simp only [nearbyLoop, ih, backward, forward]

theorem limit (pd : ConsumableSeq T) (next : Option (DiffClump T)) (o : Int) :
    nearbyLimit p c.swap pd (next.map DiffClump.swap) o rev = nearbyLimit p c pd next o (!rev) := by
  cases next with
  | none => simp only [nearbyLimit, Option.map_none, adjLength, context]
  | some n => simp only [nearbyLimit, Option.map_some, adjLength, adjStart, context]

theorem nearby [DecidableEq T] (pd : ConsumableSeq T) (next : Option (DiffClump T)) (o : Int) :
    willApplyNearby p c.swap pd (next.map DiffClump.swap) o rev = willApplyNearby p c pd next o (!rev) := by
  simp only [willApplyNearby, limit, loop]

theorem already [Item T] (pd : ConsumableSeq T) (o : Int) (r : Option (Nat × Nat)) :
    alreadyAppliedInto p c.swap pd o r rev = alreadyAppliedInto p c pd o r (!rev) := by
  simp only [alreadyAppliedInto, afterAdjustedStart, afterAdjustedLength, adjStart, adjLength]

theorem failure [Item T] : writeFailureDataInto p c.swap rev = writeFailureDataInto p c (!rev) := by
  simp only [writeFailureDataInto, afterWriteInto, write]

theorem step [DecidableEq T] [Item T] (l : List T) (next : Option (DiffClump T)) (pd : ConsumableSeq T) (o : Int)
    (st : Statistics) : applyStep p l rev c.swap (next.map DiffClump.swap) pd o st = applyStep p l (!rev) c next pd o st := by
  simp only [applyStep, willApply', applyInto', nearby, clumpIsAlreadyApplied, clumpIsAlreadyAppliedNearby, already, failure]

theorem head?_map (cs : List (DiffClump T)) : (cs.map DiffClump.swap).head? = cs.head?.map DiffClump.swap := by
  cases cs <;> rfl

theorem applyLoop' [DecidableEq T] [Item T] (l : List T) (cs : List (DiffClump T)) (pd : ConsumableSeq T) (o : Int)
    (st : Statistics) : applyLoop p l rev (cs.map DiffClump.swap) pd o st = applyLoop p l (!rev) cs pd o st := by
  induction cs generalizing pd o st with
  | nil => rfl
  | cons c cs ih => simp only [List.map_cons, applyLoop, head?_map, step, ih]

theorem applyAll [DecidableEq T] [Item T] (l : List T) (cs : List (DiffClump T)) :
    applyInto p (cs.map DiffClump.swap) l rev = applyInto p cs l (!rev) := by
  simp only [applyInto, applyLoop']

theorem alreadyLoop [DecidableEq T] (l : List T) (pd : ConsumableSeq T) (cs : List (DiffClump T)) (o : Int) :
    isAlreadyAppliedLoop p l rev pd (cs.map DiffClump.swap) o = isAlreadyAppliedLoop p l (!rev) pd cs o := by
  induction cs generalizing o with
  | nil => rfl
  | cons c cs ih =>
    simp only [List.map_cons, isAlreadyAppliedLoop, head?_map, clumpIsAlreadyApplied, clumpIsAlreadyAppliedNearby,
      willApply', nearby, ih]

theorem alreadyAll [DecidableEq T] (l : List T) (cs : List (DiffClump T)) :
    isAlreadyApplied p (cs.map DiffClump.swap) l rev = isAlreadyApplied p cs l (!rev) := by
  simp only [isAlreadyApplied, alreadyLoop]

end Swap

theorem swap_swap (cs : List (DiffClump T)) : (cs.map DiffClump.swap).map DiffClump.swap = cs := by
  rw [List.map_map]
  conv => rhs; rw [← List.map_id cs]
  rfl

/-- A diff read in the other direction. -/
theorem Diffed.swap {skip : CommonSubsequence → Prop} {before after : List T} {i j ie je : Nat} {cs : List (DiffClump T)}
    (h : Diffed skip before after i j cs ie je) :
    Diffed (fun g => skip ⟨g.a, g.b, g.n⟩) after before j i (cs.map DiffClump.swap) je ie := by
  induction cs generalizing i j with
  | nil =>
    obtain ⟨n, h1, h2, h3⟩ := h
    exact ⟨n, h2, h1, h3⟩
  | cons c cs ih =>
    obtain ⟨⟨n, h1, h2, h3⟩, h4, h5, h6⟩ := h
    exact ⟨⟨n, h2, h1, h3⟩, h5, h4, ih h6⟩

end PwDiff
