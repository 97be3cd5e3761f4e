import Verif.Proofs.LeftOut
import Verif.Props.Undo

/-! # C97: what a patch makes of its own source, line by line, and what the context has to do with it -/

namespace PwDiff

/-- The full statement of C97: the number of context lines a patch is made with does not matter for what it makes of its
own source. -/
def C97_statement : Prop :=
  ∀ (p : Profile) (before after : List Str) (context context' : Nat) (cs cs' : List (DiffClump Str)), context ≤ 255 →
    context' ≤ 255 → diffClumps p before after context = .ok cs → diffClumps p before after context' = .ok cs' →
    (applyInto p cs before false).run.2 = (applyInto p cs' before false).run.2

/-- It fails: with two lines of context the lost edit (`c` against `x`) is close enough to the recorded one to be carried
over with it. -/
theorem C97_refuted : ¬ C97_statement := by
  intro h
  have := h .debug lostBefore lostAfter 1 2 lostClumps [⟨(2, 0), ⟨2, [ln 'c', ln 'd', ln 'e']⟩, ⟨2, [ln 'x', ln 'd']⟩⟩]
    (by decide) (by decide) (by decide +kernel) (by decide +kernel)
  exact absurd this (by decide +kernel)

section

variable {T : Type} [DecidableEq T] [Item T] [LawfulItem T]

/-- What holds, exactly: a line of the output is the line of `after` at that place, unless the place is in an unchanged block
at least `context` lines away from the changes next to the block (see `LeftOut`); there it is the line of `before`. -/
theorem C97_partial (p q : Profile) (before after : List T) (context : Nat) (hctx : context ≤ 255)
    (hb : before.length ≤ maxLines) (ha : after.length ≤ maxLines) (changes : List Change) (cs : List (DiffClump T))
    (hch : changesOf p before after = .ok changes) (h : diffClumps p before after context = .ok cs) :
    ∃ text, (applyInto q cs before false).run = (.ok { clean := cs.length }, bytesOf text) ∧
      text.length = after.length ∧
      ∀ i : Nat, (∀ j, LeftOut context changes j i → text[i]? = before[j]?) ∧
        ((∀ j, ¬ LeftOut context changes j i) → text[i]? = after[i]?) := by
  obtain ⟨hd, changes', hch', hd2⟩ := diffClumps_full hctx h
  obtain rfl := Outcome.ok_inj (hch.symm.trans hch')
  exact ⟨_, by rw [apply_to_source q hd hb ha, WM.run_emit], hd.retarget.2.1, patched_leftOut h hch hd2⟩

example := C97_partial .debug .release lostBefore lostAfter 1 (by decide) (by decide) (by decide) [.noChange ⟨0, 0, 4⟩, .delete ⟨4, 5⟩ 4]
  lostClumps (by decide +kernel) (by decide +kernel)

/-- The same in reverse: a line of the output is the line of `before`, unless it is left out. -/
theorem C97_reverse (p q : Profile) (before after : List T) (context : Nat) (hctx : context ≤ 255)
    (hb : before.length ≤ maxLines) (ha : after.length ≤ maxLines) (changes : List Change) (cs : List (DiffClump T))
    (hch : changesOf p before after = .ok changes) (h : diffClumps p before after context = .ok cs) :
    ∃ text, (applyInto q cs after true).run = (.ok { clean := cs.length }, bytesOf text) ∧
      text.length = before.length ∧
      ∀ j : Nat, (∀ i, LeftOut context changes j i → text[j]? = after[i]?) ∧
        ((∀ i, ¬ LeftOut context changes j i) → text[j]? = before[j]?) := by
  obtain ⟨hd, changes', hch', hd2⟩ := diffClumps_full hctx h
  obtain rfl := Outcome.ok_inj (hch.symm.trans hch')
  refine ⟨_, ?_, hd.swap.retarget.2.1, unpatched_leftOut h hch hd2⟩
  have := apply_to_source q hd.swap ha hb
  rw [Swap.applyAll, List.length_map] at this
  rw [show (true : Bool) = !false from rfl, this, WM.run_emit]

example := C97_reverse .debug .release lostBefore lostAfter 1 (by decide) (by decide) (by decide) [.noChange ⟨0, 0, 4⟩, .delete ⟨4, 5⟩ 4]
  lostClumps (by decide +kernel) (by decide +kernel)

/-- The same for byte patches, if there is context and the source is not empty. -/
theorem C97_bytes (p q : Profile) (before after : List UInt8) (context : Nat) (h1 : 1 ≤ context) (hctx : context ≤ 255)
    (hbne : before ≠ []) (hsz : 2 * before.length + 2 * after.length < wordSize) (changes : List Change)
    (cs : List (DiffClump UInt8)) (hch : changesOf p before after = .ok changes)
    (h : diffClumps p before after context = .ok cs) :
    ∃ bytes, (byteApplyInto q cs before false).run = (.ok (), bytes) ∧ bytes.length = after.length ∧
      ∀ i : Nat, (∀ j, LeftOut context changes j i → bytes[i]? = before[j]?) ∧
        ((∀ j, ¬ LeftOut context changes j i) → bytes[i]? = after[i]?) := by
  obtain ⟨hd, changes', hch', hd2⟩ := diffClumps_full hctx h
  obtain rfl := Outcome.ok_inj (hch.symm.trans hch')
  refine ⟨_, ?_, hd.retarget.2.1, patched_leftOut h hch hd2⟩
  rw [byte_to_source q hd (by omega) (fun c hc => (diffClumps_starts h1 h c hc).1 hbne), WM.run_emit]

example := C97_bytes .debug .release [1, 2, 3, 4, 5] [1, 2, 9, 4] 1 (by decide) (by decide) (by decide) (by decide)
  [.noChange ⟨0, 0, 4⟩, .delete ⟨4, 5⟩ 4] [⟨(1, 0), ⟨3, [4, 5]⟩, ⟨3, [4]⟩⟩] (by decide +kernel) (by decide +kernel)

/-- Wrong lines are single ones: neither the first nor the last line of the output is wrong, nor are two lines in a row. -/
theorem C97_single (p q : Profile) (before after : List T) (context : Nat) (hctx : context ≤ 255)
    (hb : before.length ≤ maxLines) (ha : after.length ≤ maxLines) (cs : List (DiffClump T))
    (h : diffClumps p before after context = .ok cs) :
    ∃ text, (applyInto q cs before false).run = (.ok { clean := cs.length }, bytesOf text) ∧
      text.length = after.length ∧ text[0]? = after[0]? ∧ text.getLast? = after.getLast? ∧
      ∀ i : Nat, text[i]? = after[i]? ∨ text[i + 1]? = after[i + 1]? := by
  obtain ⟨hd, changes, hch, hd2⟩ := diffClumps_full hctx h
  have key := patched_isolated h hch hd2
  have hl := hd.retarget.2.1
  refine ⟨_, by rw [apply_to_source q hd hb ha, WM.run_emit], hl, ?_, ?_, ?_⟩
  · apply Classical.byContradiction
    intro hw
    have := (key 0 hw).1
    omega
  · rw [List.getLast?_eq_getElem?, List.getLast?_eq_getElem?, hl]
    apply Classical.byContradiction
    intro hw
    have := (key _ hw).2.1
    omega
  · intro i
    by_cases hw : (patchedFrom before 0 0 cs)[i + 1]? = after[i + 1]?
    · exact .inr hw
    · exact .inl (key _ hw).2.2

example := C97_single .debug .release lostBefore lostAfter 1 (by decide) (by decide) (by decide) lostClumps (by decide +kernel)

/-- So inputs with an empty diff (C16) are the same but for single items: their first items agree, their last items agree, and of two
items in a row at least one agrees. -/
theorem C16_single (p : Profile) (before after : List T) (context : Nat) (hctx : context ≤ 255)
    (h : diffClumps p before after context = .ok []) :
    before.length = after.length ∧ before[0]? = after[0]? ∧ before.getLast? = after.getLast? ∧
      ∀ i : Nat, before[i]? = after[i]? ∨ before[i + 1]? = after[i + 1]? := by
  obtain ⟨hd, changes, hch, hd2⟩ := diffClumps_full hctx h
  have key := patched_isolated h hch hd2
  have hl : before.length = after.length := hd.retarget.2.1
  refine ⟨hl, ?_, ?_, fun i => ?_⟩
  · apply Classical.byContradiction
    intro hw
    have := (key 0 hw).1
    omega
  · rw [List.getLast?_eq_getElem?, List.getLast?_eq_getElem?, hl]
    apply Classical.byContradiction
    intro hw
    have := (key _ hw).2.1
    omega
  · by_cases hw : before[i + 1]? = after[i + 1]?
    · exact .inr hw
    · exact .inl (key _ hw).2.2

example : diffClumps .release ([1, 2, 3, 4, 3] : List UInt8) [1, 9, 3, 8, 3] 3 = .ok [] := by decide +kernel
example := C16_single .release ([1, 2, 3, 4, 3] : List UInt8) [1, 9, 3, 8, 3] 3 (by decide) (by decide +kernel)

/-- The same in reverse. -/
theorem C97_singleReverse (p q : Profile) (before after : List T) (context : Nat) (hctx : context ≤ 255)
    (hb : before.length ≤ maxLines) (ha : after.length ≤ maxLines) (cs : List (DiffClump T))
    (h : diffClumps p before after context = .ok cs) :
    ∃ text, (applyInto q cs after true).run = (.ok { clean := cs.length }, bytesOf text) ∧
      text.length = before.length ∧ text[0]? = before[0]? ∧ text.getLast? = before.getLast? ∧
      ∀ i : Nat, text[i]? = before[i]? ∨ text[i + 1]? = before[i + 1]? := by
  obtain ⟨hd, changes, hch, hd2⟩ := diffClumps_full hctx h
  have key := unpatched_isolated h hch hd2
  have hl := hd.swap.retarget.2.1
  refine ⟨patchedFrom after 0 0 (cs.map DiffClump.swap), ?_, hl, ?_, ?_, ?_⟩
  · have := apply_to_source q hd.swap ha hb
    rw [Swap.applyAll, List.length_map] at this
    rw [show (true : Bool) = !false from rfl, this, WM.run_emit]
  · apply Classical.byContradiction
    intro hw
    have := (key 0 hw).1
    omega
  · rw [List.getLast?_eq_getElem?, List.getLast?_eq_getElem?, hl]
    apply Classical.byContradiction
    intro hw
    have := (key _ hw).2.1
    omega
  · intro i
    by_cases hw : (patchedFrom after 0 0 (cs.map DiffClump.swap))[i + 1]? = before[i + 1]?
    · exact .inr hw
    · exact .inl (key _ hw).2.2

example := C97_singleReverse .debug .release lostBefore lostAfter 1 (by decide) (by decide) (by decide) lostClumps (by decide +kernel)

/-- More context never loses more: a line that is right with less context is right with more, and every line made with more
context is right or the one made with less. -/
theorem C97_context (p q : Profile) (before after : List T) (context context' : Nat) (hle : context ≤ context')
    (hctx : context' ≤ 255) (hb : before.length ≤ maxLines) (ha : after.length ≤ maxLines) (cs cs' : List (DiffClump T))
    (h : diffClumps p before after context = .ok cs) (h' : diffClumps p before after context' = .ok cs') :
    ∃ text text', (applyInto q cs before false).run = (.ok { clean := cs.length }, bytesOf text) ∧
      (applyInto q cs' before false).run = (.ok { clean := cs'.length }, bytesOf text') ∧
      ∀ i : Nat, text'[i]? = after[i]? ∨ text'[i]? = text[i]? := by
  obtain ⟨hd, changes, hch, hd2⟩ := diffClumps_full (by omega) h
  obtain ⟨hd', changes', hch', hd2'⟩ := diffClumps_full hctx h'
  obtain rfl := Outcome.ok_inj (hch.symm.trans hch')
  refine ⟨_, _, by rw [apply_to_source q hd hb ha, WM.run_emit], by rw [apply_to_source q hd' hb ha, WM.run_emit], ?_⟩
  intro i
  by_cases hex : ∃ j, LeftOut context' changes j i
  · obtain ⟨j, hj⟩ := hex
    right
    rw [(patched_leftOut h' hch hd2' i).1 j hj, (patched_leftOut h hch hd2 i).1 j (hj.mono hle)]
  · exact .inl ((patched_leftOut h' hch hd2' i).2 fun j hj => hex ⟨j, hj⟩)

example := C97_context .debug .release lostBefore lostAfter 1 2 (by decide) (by decide) (by decide) (by decide) lostClumps
  [⟨(2, 0), ⟨2, [ln 'c', ln 'd', ln 'e']⟩, ⟨2, [ln 'x', ln 'd']⟩⟩] (by decide +kernel) (by decide +kernel)

/-- Without a single differing pair between equal ones the context does not matter. -/
theorem C97_same (p q : Profile) (before after : List T) (context context' : Nat) (hctx : context ≤ 255)
    (hctx' : context' ≤ 255) (hb : before.length ≤ maxLines) (ha : after.length ≤ maxLines) (cs cs' : List (DiffClump T))
    (h : diffClumps p before after context = .ok cs) (h' : diffClumps p before after context' = .ok cs')
    (hi : NoIsland before after) :
    (applyInto q cs before false).run.2 = bytesOf after ∧ (applyInto q cs' before false).run.2 = bytesOf after := by
  obtain ⟨text, e, -, -, e2⟩ := C24_partial p q before after context hctx hb ha cs h
  obtain ⟨text', e', -, -, e2'⟩ := C24_partial p q before after context' hctx' hb ha cs' h'
  rw [e, e', e2 hi, e2' hi]
  exact ⟨rfl, rfl⟩

end

/-! ## A case -/

/-- The changes of the example: `e` is deleted, everything before it counts as unchanged although `c` became `x`. -/
example : changesOf .debug lostBefore lostAfter = .ok [.noChange ⟨0, 0, 4⟩, .delete ⟨4, 5⟩ 4] := by decide +kernel

/-- With one line of context the pair `(2, 2)` is left out, with two lines it is not. -/
example : LeftOut 1 [.noChange ⟨0, 0, 4⟩, .delete ⟨4, 5⟩ 4] 2 2 :=
  ⟨[], _, _, 2, rfl, by decide, rfl, rfl, fun h => absurd rfl h, fun _ => by decide⟩

example (j : Nat) : ¬ LeftOut 2 [.noChange ⟨0, 0, 4⟩, .delete ⟨4, 5⟩ 4] j 2 := by
  rintro ⟨pre, c, post, t, e, h1, h2, h3, h4, h5⟩
  have : pre = [] ∨ ∃ d, pre = [d] := by
    cases pre with
    | nil => exact .inl rfl
    | cons d pre =>
      cases pre with
      | nil => exact .inr ⟨d, rfl⟩
      | cons d' pre =>
        have := congrArg List.length e
        simp at this
  rcases this with rfl | ⟨d, rfl⟩
  · simp only [List.nil_append, List.cons.injEq, Change.noChange.injEq] at e
    obtain ⟨rfl, rfl⟩ := e
    have := h5 (by simp)
    simp only at h3 this
    omega
  · simp at e

end PwDiff
