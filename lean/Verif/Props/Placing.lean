import Verif.Proofs.Placing
import Verif.Props.Together

/-! # C113: several runs of `pw_patch` that create or remove files at the same time -/

namespace PwDiff

open Sys Steps

variable {fs : FS} {jobs : List Job}

/-- At every time, and from there on. -/
theorem placed_turns (hr : Placing fs jobs) {faults : Nat → List Fault} (order : List Nat) {m : Machine} {phase : Nat → Phase}
    {owner : Nat → Option Nat} (h : Placed fs jobs faults m phase owner) :
    ∃ phase' owner', Placed fs jobs faults (m.turns order) phase' owner' ∧ Onward fs jobs owner owner' m (m.turns order) := by
  induction order generalizing m phase owner with
  | nil => exact ⟨phase, owner, h, .refl _ _ _ _ rfl⟩
  | cons i order ih =>
    obtain ⟨p1, o1, k1, g1⟩ := h.turn hr i
    obtain ⟨p2, o2, k2, g2⟩ := ih k1
    refine ⟨p2, o2, k2, fun e k he => g2.stays e k (g1.stays e k he), ?_⟩
    intro e k j c h1 h2 h3 a ha
    obtain ⟨b, hb, hab⟩ := g1.grows e k j c h1 h2 h3 a ha
    obtain ⟨b', hb', hbb⟩ := g2.grows e k j c (g1.stays e k h1) h2 h3 b hb
    exact ⟨b', hb', hab.trans hbb⟩

/-- At every time, whatever fails and whoever is killed: names are as before and so are all files that no run is for.  A file that
is to be created and was there already is as it was; otherwise it is not there, or holds the beginning of what one of the runs for
it is to write: the contents of two runs are never mixed. -/
theorem C113_create (hr : Placing fs jobs) (faults : Nat → List Fault) (order : List Nat) :
    let m := (Machine.start fs jobs faults).turns order
    m.fs.entry = fs.entry ∧ (∀ e, (∀ j ∈ jobs, e ≠ fs.entry j.target) → m.fs.node e = fs.node e) ∧
    ∀ j ∈ jobs, (∃ c, j.Creates c) → let e := fs.entry j.target
      (fs.node e ≠ none → m.fs.node e = fs.node e) ∧
      (fs.node e = none → m.fs.node e = none ∨
        ∃ (i : Nat) (k : Job) (c : List UInt8) (n : Nat), jobs[i]? = some k ∧ fs.entry k.target = e ∧ k.Creates c ∧ m.fs.node e = some (.file (c.take n))) := by
  obtain ⟨phase, owner, h, -⟩ := placed_turns hr order (.start fs jobs faults)
  refine ⟨h.entry, ?_, ?_⟩
  · intro e he
    refine h.free e ?_
    cases ho : owner e with
    | none => rfl
    | some i =>
      obtain ⟨j, k1, k2, -⟩ := h.owned e i ho
      exact absurd k2.symm (he j (List.mem_of_getElem? k1))
  · rintro j hj ⟨c, hc⟩
    have own : ∀ i, owner (fs.entry j.target) = some i → ∃ (k : Job) (c' : List UInt8) (n : Nat), jobs[i]? = some k ∧
        fs.entry k.target = fs.entry j.target ∧ k.Creates c' ∧ fs.node (fs.entry j.target) = none ∧
        ((Machine.start fs jobs faults).turns order).fs.node (fs.entry j.target) = some (.file (c'.take n)) := by
      intro i ho
      obtain ⟨k, k1, k2, k3, -⟩ := h.owned _ i ho
      have hk := List.mem_of_getElem? k1
      rcases hr.kind k hk with ⟨c', hc'⟩ | hd
      · obtain ⟨m1, n, m2⟩ := k3 c' hc'
        exact ⟨k, c', n, k1, k2, hc', m1, m2⟩
      · exact absurd k2.symm (hr.either j hj k hk ⟨c, hc⟩ hd)
    constructor
    · intro hne
      refine h.free _ ?_
      cases ho : owner (fs.entry j.target) with
      | none => rfl
      | some i =>
        obtain ⟨-, -, -, -, -, -, e, -⟩ := own i ho
        exact absurd e hne
    · intro hnone
      cases ho : owner (fs.entry j.target) with
      | none => exact .inl ((h.free _ ho).trans hnone)
      | some i =>
        obtain ⟨k, c', n, k1, k2, k3, -, k4⟩ := own i ho
        exact .inr ⟨i, k, c', n, k1, k2, k3, k4⟩

/-- A file that one of the runs has created stays that run's file: later it holds no less of the content, and never that of
another. -/
theorem C113_kept (hr : Placing fs jobs) (faults : Nat → List Fault) (order later : List Nat) (j : Job) (hj : j ∈ jobs)
    (hc : ∃ c, j.Creates c) (hnone : fs.node (fs.entry j.target) = none) (x : Node)
    (hx : ((Machine.start fs jobs faults).turns order).fs.node (fs.entry j.target) = some x) :
    ∃ (i : Nat) (k : Job) (c a b : List UInt8), jobs[i]? = some k ∧ fs.entry k.target = fs.entry j.target ∧ k.Creates c ∧ x = .file a ∧
      ((Machine.start fs jobs faults).turns (order ++ later)).fs.node (fs.entry j.target) = some (.file b) ∧ a <+: b ∧ b <+: c := by
  obtain ⟨phase, owner, h, -⟩ := placed_turns hr order (.start fs jobs faults)
  rw [Machine.turns_append]
  obtain ⟨phase', owner', h', g⟩ := placed_turns hr later h
  cases ho : owner (fs.entry j.target) with
  | none =>
    rw [h.free _ ho, hnone] at hx
    cases hx
  | some i =>
    obtain ⟨k, k1, k2, k3, -⟩ := h.owned _ i ho
    have hk := List.mem_of_getElem? k1
    rcases hr.kind k hk with ⟨c, hkc⟩ | hd
    · obtain ⟨-, n, m2⟩ := k3 c hkc
      rw [hx] at m2
      cases m2
      obtain ⟨b, hb, hab⟩ := g.grows _ i k c ho k1 hkc _ hx
      obtain ⟨l, l1, -, l3, -⟩ := h'.owned _ i (g.stays _ i ho)
      obtain rfl := Option.some.inj (k1.symm.trans l1)
      obtain ⟨-, n', e⟩ := l3 c hkc
      rw [hb] at e
      cases e
      exact ⟨i, k, c, _, _, k1, k2, hkc, rfl, hb, hab, List.take_prefix _ _⟩
    · exact absurd k2.symm (hr.either j hj k hk hc hd)

/-- When all runs for a file that was not there have ended, and none of their operations has failed, it has been created, with the
complete content of one of them. -/
theorem C113_complete (hr : Placing fs jobs) (faults : Nat → List Fault) (order : List Nat) (j : Job) (hj : j ∈ jobs)
    (hc : ∃ c, j.Creates c) (hnone : fs.node (fs.entry j.target) = none)
    (hall : ∀ i k, jobs[i]? = some k → fs.entry k.target = fs.entry j.target → faults i = [] ∧
      ∃ r, (((Machine.start fs jobs faults).turns order).proc i).rest = .ended r) :
    ∃ (i : Nat) (k : Job) (c : List UInt8), jobs[i]? = some k ∧ fs.entry k.target = fs.entry j.target ∧ k.Creates c ∧
      ((Machine.start fs jobs faults).turns order).fs.node (fs.entry j.target) = some (.file c) := by
  obtain ⟨phase, owner, h, -⟩ := placed_turns hr order (.start fs jobs faults)
  have over : ∀ i k, jobs[i]? = some k → fs.entry k.target = fs.entry j.target → phase i = .over := by
    intro i k hk ht
    obtain ⟨-, r, hrest⟩ := hall i k hk ht
    have hat := h.at_ i k hk
    cases hp : phase i with
    | over => rfl
    | begin => rw [hp] at hat; rw [hat.1] at hrest; cases hrest
    | opened =>
      rw [hp] at hat
      rw [hat.1] at hrest
      rcases hr.kind k (List.mem_of_getElem? hk) with ⟨c, hkc⟩ | hd
      · rw [applyDiffSteps_creates _ _ hkc] at hrest; cases hrest
      · rw [applyDiffSteps_deletes _ _ hd] at hrest; cases hrest
    | created =>
      rw [hp] at hat
      obtain ⟨c, -, e, -⟩ := hat
      rw [e] at hrest; cases hrest
  obtain ⟨c, hc⟩ := hc
  obtain ⟨i, hi⟩ := List.getElem?_of_mem hj
  have hat := h.at_ i j hi
  rw [over i j hi rfl] at hat
  obtain ⟨-, -, k1, -⟩ := hat
  have hne := (k1 c hc (hall i j hi rfl).1).1
  cases ho : owner (fs.entry j.target) with
  | none => rw [h.free _ ho] at hne; exact absurd hnone hne
  | some i' =>
    obtain ⟨k, m1, m2, -, -⟩ := h.owned _ i' ho
    have hk := List.mem_of_getElem? m1
    rcases hr.kind k hk with ⟨c', hkc⟩ | hd
    · have hat := h.at_ i' k m1
      rw [over i' k m1 m2] at hat
      obtain ⟨-, -, k1, -⟩ := hat
      refine ⟨i', k, c', m1, m2, hkc, ?_⟩
      have := (k1 c' hkc (hall i' k m1 m2).1).2
      rw [m2] at this
      exact this ho
    · exact absurd m2.symm (hr.either j hj k hk ⟨c, hc⟩ hd)

/-- Of several runs that are to remove a file, at most one ends with exit status 0, and exactly if one does the file is gone;
otherwise it is as it was. -/
theorem C113_delete (hr : Placing fs jobs) (faults : Nat → List Fault) (order : List Nat) (j : Job) (hj : j ∈ jobs) (hd : j.Deletes) :
    let m := (Machine.start fs jobs faults).turns order
    let e := fs.entry j.target
    (m.fs.node e = fs.node e ∧ ∀ i k, jobs[i]? = some k → fs.entry k.target = e → (m.proc i).rest ≠ .ended (.ok ())) ∨
    (m.fs.node e = none ∧ fs.node e ≠ none ∧ ∃ i k, jobs[i]? = some k ∧ fs.entry k.target = e ∧ (m.proc i).rest = .ended (.ok ()) ∧
      ∀ i' k', jobs[i']? = some k' → fs.entry k'.target = e → (m.proc i').rest = .ended (.ok ()) → i' = i) := by
  obtain ⟨phase, owner, h, -⟩ := placed_turns hr order (.start fs jobs faults)
  -- who has ended with exit status 0 owns the file
  have only : ∀ i k, jobs[i]? = some k → fs.entry k.target = fs.entry j.target →
      ((((Machine.start fs jobs faults).turns order).proc i).rest = .ended (.ok ()) ↔ owner (fs.entry j.target) = some i) := by
    intro i k hk ht
    have hkm := List.mem_of_getElem? hk
    have hkd : k.Deletes := by
      rcases hr.kind k hkm with hc | hd'
      · exact absurd ht (hr.either k hkm j hj hc hd)
      · exact hd'
    have hat := h.at_ i k hk
    rw [ht] at hat
    cases hp : phase i with
    | begin =>
      rw [hp] at hat
      rw [hat.1]
      exact iff_of_false nofun hat.2.1
    | opened =>
      rw [hp] at hat
      rw [hat.1, applyDiffSteps_deletes _ _ hkd]
      exact iff_of_false nofun hat.2.1
    | created =>
      rw [hp] at hat
      obtain ⟨c, hc, -⟩ := hat
      exact absurd hkd (fun x => Job.not_both hc x)
    | over =>
      rw [hp] at hat
      obtain ⟨e, k1, -, k3⟩ := hat
      rw [k1, ← (k3 hkd).1]
      constructor
      · intro x; cases x; rfl
      · intro x; rw [x]
  cases ho : owner (fs.entry j.target) with
  | none =>
    refine .inl ⟨h.free _ ho, ?_⟩
    intro i k hk ht hrest
    have := (only i k hk ht).1 hrest
    rw [ho] at this
    cases this
  | some i =>
    obtain ⟨k, m1, m2, -, m4⟩ := h.owned _ i ho
    have hkm := List.mem_of_getElem? m1
    have hkd : k.Deletes := by
      rcases hr.kind k hkm with hc | hd'
      · exact absurd m2 (hr.either k hkm j hj hc hd)
      · exact hd'
    obtain ⟨n1, n2, -⟩ := m4 hkd
    refine .inr ⟨n1, n2, i, k, m1, m2, (only i k m1 m2).2 ho, ?_⟩
    intro i' k' hk' ht' hrest
    have := (only i' k' hk' ht').1 hrest
    rw [ho] at this
    exact (Option.some.inj this).symm

/-- When all of them have ended, and none of their operations has failed, exactly one has removed the file, and the others have
ended with exit status 1. -/
theorem C113_deleted (hr : Placing fs jobs) (faults : Nat → List Fault) (order : List Nat) (j : Job) (hj : j ∈ jobs) (hd : j.Deletes)
    (hthere : fs.node (fs.entry j.target) ≠ none) (hdir : fs.node (fs.entry j.target) ≠ some .dir)
    (hall : ∀ i k, jobs[i]? = some k → fs.entry k.target = fs.entry j.target → faults i = [] ∧
      ∃ r, (((Machine.start fs jobs faults).turns order).proc i).rest = .ended r) :
    let m := (Machine.start fs jobs faults).turns order
    m.fs.node (fs.entry j.target) = none ∧
    ∃ i k, jobs[i]? = some k ∧ fs.entry k.target = fs.entry j.target ∧ (m.proc i).rest = .ended (.ok ()) ∧
      ∀ i' k', jobs[i']? = some k' → fs.entry k'.target = fs.entry j.target → i' ≠ i →
        (m.proc i').rest = .ended (.error (.exited 1)) := by
  have main := C113_delete hr faults order j hj hd
  obtain ⟨phase, owner, h, -⟩ := placed_turns hr order (.start fs jobs faults)
  have ends : ∀ i k, jobs[i]? = some k → fs.entry k.target = fs.entry j.target →
      (((Machine.start fs jobs faults).turns order).proc i).rest = .ended (.ok ()) ∨
      (((Machine.start fs jobs faults).turns order).proc i).rest = .ended (.error (.exited 1)) ∧ owner (fs.entry j.target) ≠ none := by
    intro i k hk ht
    have hkm := List.mem_of_getElem? hk
    have hkd : k.Deletes := by
      rcases hr.kind k hkm with hc | hd'
      · exact absurd ht (hr.either k hkm j hj hc hd)
      · exact hd'
    obtain ⟨hf, r, hrest⟩ := hall i k hk ht
    have hat := h.at_ i k hk
    rw [ht] at hat
    cases hp : phase i with
    | begin => rw [hp] at hat; rw [hat.1] at hrest; cases hrest
    | opened => rw [hp] at hat; rw [hat.1, applyDiffSteps_deletes _ _ hkd] at hrest; cases hrest
    | created =>
      rw [hp] at hat
      obtain ⟨c, hc, -⟩ := hat
      exact absurd hkd (fun x => Job.not_both hc x)
    | over =>
      rw [hp] at hat
      obtain ⟨e, k1, -, k3⟩ := hat
      rcases (k3 hkd).2 hf with rfl | ⟨rfl, k4⟩
      · exact .inl k1
      · refine .inr ⟨k1, ?_⟩
        rw [ht] at k4
        rcases k4 with k4 | k4 | k4
        · exact k4
        · exact absurd k4 hthere
        · exact absurd k4 hdir
  rcases main with ⟨m1, m2⟩ | ⟨m1, -, i, k, m2, m3, m4, m5⟩
  · obtain ⟨i, hi⟩ := List.getElem?_of_mem hj
    rcases ends i j hi rfl with e | ⟨-, e⟩
    · exact absurd e (m2 i j hi rfl)
    · cases ho : owner (fs.entry j.target) with
      | none => exact absurd ho e
      | some i' =>
        obtain ⟨k, n1, n2, -, n4⟩ := h.owned _ i' ho
        have hkm := List.mem_of_getElem? n1
        rcases hr.kind k hkm with hc | hd'
        · exact absurd n2 (hr.either k hkm j hj hc hd)
        · rw [(n4 hd').1] at m1
          exact absurd m1.symm hthere
  · refine ⟨m1, i, k, m2, m3, m4, ?_⟩
    intro i' k' h1 h2 h3
    rcases ends i' k' h1 h2 with e | ⟨e, -⟩
    · exact absurd (m5 i' k' h1 h2 e) h3
    · exact e

/-! ## Examples -/

/-- A diff that adds the file `A` with the content `1 2`, and one that adds it with `3`. -/
def addOne : Diff := .byteAdd ⟨[65], false, [1, 2]⟩
def addTwo : Diff := .byteAdd ⟨[65], false, [3]⟩

def placingFS : FS := FS.ofFiles [([67], addOne.fileContent), ([68], addTwo.fileContent)]

/-- Two runs for the same file. -/
def placeOne : Job := ⟨.release, [84], [67], false, addOne, [65]⟩
def placeTwo : Job := ⟨.release, [85], [68], false, addTwo, [65]⟩

theorem placingFS_ready : Placing placingFS [placeOne, placeTwo] := by
  have two : ∀ {P : Job → Prop}, P placeOne → P placeTwo → ∀ j ∈ [placeOne, placeTwo], P j := by
    intro P h1 h2 j hj
    rcases List.mem_cons.1 hj with rfl | hj
    · exact h1
    · rw [List.mem_singleton.1 hj]
      exact h2
  have utf : IsUtf8 [65] := ⟨['A'], by decide⟩
  have hrd1 : Diff.fromReader ⟨addOne.fileContent, false⟩ = .ok addOne :=
    (toWriter_fromReader addOne trivial (by intro path h; simp only [addOne, Diff.paths, List.mem_singleton] at h; rw [h]; exact utf)).2
  have hrd2 : Diff.fromReader ⟨addTwo.fileContent, false⟩ = .ok addTwo :=
    (toWriter_fromReader addTwo trivial (by intro path h; simp only [addTwo, Diff.paths, List.mem_singleton] at h; rw [h]; exact utf)).2
  refine ⟨two ⟨_, rfl, hrd1⟩ ⟨_, rfl, hrd2⟩, two (.inl ⟨[1, 2], rfl⟩) (.inl ⟨[3], rfl⟩), two (two ?_ ?_) (two ?_ ?_), two (two ?_ ?_) (two ?_ ?_)⟩ <;>
    first | (intro _ h; cases h; done) | (intro h; cases h; done)

/-- Both runs have read their diffs. -/
theorem placing_begin (order : List Nat) : (Machine.start placingFS [placeOne, placeTwo] fun _ => []).turns (0 :: 1 :: order) =
    (Machine.mk placingFS (upd (upd (Machine.start placingFS [placeOne, placeTwo] fun _ => []).proc 0
      ⟨applyDiffSteps .release [84] false addOne, [], []⟩) 1 ⟨applyDiffSteps .release [85] false addTwo, [], []⟩)).turns order := by
  obtain ⟨c1, hc1, hd1⟩ := placingFS_ready.held placeOne (by simp)
  obtain ⟨c2, hc2, hd2⟩ := placingFS_ready.held placeTwo (by simp)
  rw [Machine.turns_cons, turn_patch (j := placeOne) rfl (FS.contentAt_file hc1) hd1, Machine.turns_cons,
    turn_patch (j := placeTwo) rfl (FS.contentAt_file hc2) hd2]
  exact rfl

theorem placing_rest (a b : List UInt8) (p : Nat → Process) :
    let fs := FS.ofFiles [([67], a), ([68], b)]
    let m := (Machine.mk fs (upd (upd p 0 ⟨applyDiffSteps .release [84] false addOne, [], []⟩) 1
      ⟨applyDiffSteps .release [85] false addTwo, [], []⟩)).turns [0, 1, 0]
    (m.proc 0).rest = .ended (.ok ()) ∧ (m.proc 1).rest = .ended (.ok ()) ∧ m.fs.node (fs.entry [65]) = some (.file [1, 2]) := by
  exact ⟨rfl, rfl, rfl⟩

/-- The first run creates the file, the second cannot and ends, and the first writes the file: both end with exit status 0, although
nothing of the second is there. -/
example : let m := (Machine.start placingFS [placeOne, placeTwo] fun _ => []).turns [0, 1, 0, 1, 0]
    (m.proc 0).rest = .ended (.ok ()) ∧ (m.proc 1).rest = .ended (.ok ()) ∧
    m.fs.node (placingFS.entry [65]) = some (.file [1, 2]) := by
  rw [placing_begin]
  exact placing_rest _ _ _

/-- Two runs that are to remove the file `A`: the second is too late and ends with exit status 1. -/
def deleteOne : Diff := .byteRemove ⟨[65], false, [1, 2]⟩

def removingFS : FS := FS.ofFiles [([65], [1, 2]), ([67], deleteOne.fileContent)]

def removeOne : Job := ⟨.release, [84], [67], false, deleteOne, [65]⟩

theorem removingFS_ready : Placing removingFS [removeOne, removeOne] := by
  have two : ∀ {P : Job → Prop}, P removeOne → ∀ j ∈ [removeOne, removeOne], P j := by
    intro P h1 j hj
    rcases List.mem_cons.1 hj with rfl | hj
    · exact h1
    · rw [List.mem_singleton.1 hj]
      exact h1
  have utf : IsUtf8 [65] := ⟨['A'], by decide⟩
  have hrd : Diff.fromReader ⟨deleteOne.fileContent, false⟩ = .ok deleteOne :=
    (toWriter_fromReader deleteOne trivial (by intro path h; simp only [deleteOne, Diff.paths, List.mem_singleton] at h; rw [h]; exact utf)).2
  refine ⟨two ⟨_, rfl, hrd⟩, two (.inr rfl), two (two ?_), two (two ?_)⟩
  · intro h; cases h
  · rintro ⟨_, h⟩; cases h

theorem removing_begin (order : List Nat) : (Machine.start removingFS [removeOne, removeOne] fun _ => []).turns (0 :: 1 :: order) =
    (Machine.mk removingFS (upd (upd (Machine.start removingFS [removeOne, removeOne] fun _ => []).proc 0
      ⟨applyDiffSteps .release [84] false deleteOne, [], []⟩) 1 ⟨applyDiffSteps .release [84] false deleteOne, [], []⟩)).turns order := by
  obtain ⟨c1, hc1, hd1⟩ := removingFS_ready.held removeOne (by simp)
  rw [Machine.turns_cons, turn_patch (j := removeOne) rfl (FS.contentAt_file hc1) hd1, Machine.turns_cons,
    turn_patch (j := removeOne) rfl (FS.contentAt_file hc1) hd1]
  exact rfl

theorem removing_rest (a b : List UInt8) (p : Nat → Process) :
    let fs := FS.ofFiles [([65], a), ([67], b)]
    let m := (Machine.mk fs (upd (upd p 0 ⟨applyDiffSteps .release [84] false deleteOne, [], []⟩) 1
      ⟨applyDiffSteps .release [84] false deleteOne, [], []⟩)).turns [0, 1]
    (m.proc 0).rest = .ended (.ok ()) ∧ (m.proc 1).rest = .ended (.error (.exited 1)) ∧ m.fs.node (fs.entry [65]) = none :=
  ⟨rfl, rfl, rfl⟩

example : let m := (Machine.start removingFS [removeOne, removeOne] fun _ => []).turns [0, 1, 0, 1]
    (m.proc 0).rest = .ended (.ok ()) ∧ (m.proc 1).rest = .ended (.error (.exited 1)) ∧
    m.fs.node (removingFS.entry [65]) = none := by
  rw [removing_begin]
  exact removing_rest _ _ _

example (faults : Nat → List Fault) (order : List Nat) := C113_create placingFS_ready faults order
example (faults : Nat → List Fault) (order : List Nat) := C113_delete removingFS_ready faults order removeOne (by simp)

end PwDiff
