import Verif.Proofs.Patched
import Verif.Proofs.Writer

/-! # C24–C33, C37, C57: applying text patches

The theorems are about `TextChangeClump`s over any item type; the Rust code uses them with lines (`Str`). -/

namespace PwDiff

open ChangeBasics TextClump

variable {T : Type} [DecidableEq T] [Item T] [LawfulItem T]

/-- A line consisting of one character, for examples. -/
def ln (c : Char) : Str := [c, '\n']

/-- Sample texts: `a b c d e f g` and `a B b c d e f`, one letter per line. -/
def textBefore : List Str := [ln 'a', ln 'b', ln 'c', ln 'd', ln 'e', ln 'f', ln 'g']
def textAfter : List Str := [ln 'a', ln 'B', ln 'b', ln 'c', ln 'd', ln 'e', ln 'f']
/-- Their diff with one line of context. -/
def textClumps : List (DiffClump Str) :=
  [⟨(1, 1), ⟨0, [ln 'a', ln 'b']⟩, ⟨0, [ln 'a', ln 'B', ln 'b']⟩⟩, ⟨(1, 0), ⟨5, [ln 'f', ln 'g']⟩, ⟨6, [ln 'f']⟩⟩]

theorem textClumps_eq (p : Profile) : diffClumps p textBefore textAfter 1 = .ok textClumps := by
  cases p <;> decide +kernel

/-! ## C57: what `apply_into` does -/

/-- `apply_into` with well-formed clumps ends, on a writer that does not fail, exactly as `Patching` describes; in
particular its result exists and is unique. -/
theorem C57_refines (p : Profile) (l : List T) (cs : List (DiffClump T)) (hw : ∀ c ∈ cs, c.WellFormed)
    (hsz : l.length + weight cs < sizeLimit) (out : List UInt8) (r : Outcome Statistics) :
    (applyInto p cs l false).run = (r, out) ↔ Patching p l 0 0 {} cs out r := by
  obtain ⟨out', r', h1, h2⟩ := applyInto_refines p l cs hw hsz
  rw [h1, WM.run_emit]
  constructor
  · intro h
    obtain ⟨rfl, rfl⟩ := Prod.mk.inj h
    exact h2
  · intro h
    obtain ⟨rfl, rfl⟩ := h.unique h2
    rfl

example : (∀ c ∈ textClumps, c.WellFormed) ∧ textBefore.length + weight textClumps < sizeLimit := by
  refine ⟨?_, by decide⟩
  intro c hc
  simp only [textClumps, List.mem_cons, List.not_mem_nil, or_false] at hc
  rcases hc with rfl | rfl <;> exact ⟨by decide, by decide, by decide, by decide⟩

/-! ## C26, C24, C25: a patch applied to its own source -/

/-- The clean application of a generated patch to its own source. -/
theorem apply_to_source (p : Profile) {before after : List T} {cs : List (DiffClump T)} (h : IsDiff before after cs)
    (hb : before.length ≤ maxLines) (ha : after.length ≤ maxLines) :
    applyInto p cs before false = WM.emit (bytesOf (patchedFrom before 0 0 cs)) (.ok { clean := cs.length }) := by
  obtain ⟨skip, hd⟩ := h.diffed
  have := patching_clean p before 0 0 {} cs hd.standInOrder
  have := applyInto_eq_of_patching p before cs (h.wellFormed hb ha) (h.size hb ha hb) this
  simpa using this

/-- A patch applied to its own source, forwards or in reverse, succeeds with every clump clean. -/
theorem C26_clean (p q : Profile) (before after : List T) (context : Nat) (hctx : context ≤ 255)
    (hb : before.length ≤ maxLines) (ha : after.length ≤ maxLines) (cs : List (DiffClump T))
    (h : diffClumps p before after context = .ok cs) :
    (applyInto q cs before false).run.1 = .ok { clean := cs.length } ∧
    (applyInto q cs after true).run.1 = .ok { clean := cs.length } := by
  have hd := (diffClumps_full hctx h).1
  constructor
  · rw [apply_to_source q hd hb ha, WM.run_emit]
  · have := apply_to_source q hd.swap ha hb
    rw [Swap.applyAll] at this
    rw [show (true : Bool) = !false from rfl, this, WM.run_emit, List.length_map]

example : (applyInto .debug textClumps textBefore false).run = (.ok { clean := 2 }, bytesOf textAfter) := by decide +kernel

/-- The full statement of C24. -/
def C24_statement : Prop :=
  ∀ (p : Profile) (before after : List Str) (context : Nat) (cs : List (DiffClump Str)), context ≤ 255 →
    diffClumps p before after context = .ok cs → (applyInto p cs before false).run.2 = bytesOf after

/-- It fails: the patch from `a b c` to `a x c` is empty. -/
theorem C24_refuted : ¬ C24_statement := by
  intro h
  have := h .debug [ln 'a', ln 'b', ln 'c'] [ln 'a', ln 'x', ln 'c'] 3 [] (by decide) (by decide +kernel)
  revert this
  decide +kernel

/-- What holds: the output is a text with as many lines as `after`; it is `after` exactly if the stretches the patch
leaves out are equal in both files (see `gaps`), in particular if no single differing pair of lines stands between
two equal pairs. -/
theorem C24_partial (p q : Profile) (before after : List T) (context : Nat) (hctx : context ≤ 255)
    (hb : before.length ≤ maxLines) (ha : after.length ≤ maxLines) (cs : List (DiffClump T))
    (h : diffClumps p before after context = .ok cs) :
    ∃ text, (applyInto q cs before false).run = (.ok { clean := cs.length }, bytesOf text) ∧
      text.length = after.length ∧
      (text = after ↔ ∀ g ∈ gaps before 0 0 cs, cut before g.b (g.b + g.n) = cut after g.a (g.a + g.n)) ∧
      (NoIsland before after → text = after) := by
  obtain ⟨hd, changes, hch, hd2⟩ := diffClumps_full hctx h
  refine ⟨patchedFrom before 0 0 cs, by rw [apply_to_source q hd hb ha, WM.run_emit], ?_, ?_, ?_⟩
  · have := hd2.patched.1
    omega
  · have := hd2.patched.2
    rwa [List.drop_zero] at this
  · intro hi
    have := hd2.patched.2.2 (gaps_equal_of_noIsland hch hd2 hi)
    rwa [List.drop_zero] at this

example : NoIsland textBefore textAfter := noIsland_of_check (by decide +kernel)
example : gaps textBefore 0 0 textClumps = [⟨0, 0, 0⟩, ⟨2, 3, 3⟩, ⟨7, 7, 0⟩] := by decide +kernel

/-- The full statement of C25. -/
def C25_statement : Prop :=
  ∀ (p : Profile) (before after : List Str) (context : Nat) (cs : List (DiffClump Str)), context ≤ 255 →
    diffClumps p before after context = .ok cs → (applyInto p cs after true).run.2 = bytesOf before

theorem C25_refuted : ¬ C25_statement := by
  intro h
  have := h .debug [ln 'a', ln 'b', ln 'c'] [ln 'a', ln 'x', ln 'c'] 3 [] (by decide) (by decide +kernel)
  revert this
  decide +kernel

/-- What holds in reverse: the output has as many lines as `before`, and is `before` exactly if the stretches left out
are equal. -/
theorem C25_partial (p q : Profile) (before after : List T) (context : Nat) (hctx : context ≤ 255)
    (hb : before.length ≤ maxLines) (ha : after.length ≤ maxLines) (cs : List (DiffClump T))
    (h : diffClumps p before after context = .ok cs) :
    ∃ text, (applyInto q cs after true).run = (.ok { clean := cs.length }, bytesOf text) ∧
      text.length = before.length ∧
      (text = before ↔ ∀ g ∈ gaps before 0 0 cs, cut before g.b (g.b + g.n) = cut after g.a (g.a + g.n)) ∧
      (NoIsland before after → text = before) := by
  obtain ⟨hd, changes, hch, hd2⟩ := diffClumps_full hctx h
  have hs := hd2.swap
  have hrun := apply_to_source q hd.swap ha hb
  rw [Swap.applyAll, List.length_map] at hrun
  have hiff := hs.patched.2
  rw [List.drop_zero] at hiff
  have hg : (∀ g ∈ gaps after 0 0 (cs.map DiffClump.swap), cut after g.b (g.b + g.n) = cut before g.a (g.a + g.n)) ↔
      ∀ g ∈ gaps before 0 0 cs, cut before g.b (g.b + g.n) = cut after g.a (g.a + g.n) := by
    rw [gaps_swap hd2]
    constructor
    · intro h g hg
      exact (h ⟨g.a, g.b, g.n⟩ (List.mem_map_of_mem (f := fun g : CommonSubsequence => (⟨g.a, g.b, g.n⟩ : CommonSubsequence)) hg)).symm
    · intro h g hg
      obtain ⟨g', hg', rfl⟩ := List.mem_map.1 hg
      exact (h g' hg').symm
  refine ⟨patchedFrom after 0 0 (cs.map DiffClump.swap), ?_, ?_, ?_, ?_⟩
  · rw [show (true : Bool) = !false from rfl, hrun, WM.run_emit]
  · have := hs.patched.1
    omega
  · rw [hiff, hg]
  · intro hi
    exact hiff.2 (hg.2 (gaps_equal_of_noIsland hch hd2 hi))

example : (applyInto .release textClumps textAfter true).run = (.ok { clean := 2 }, bytesOf textBefore) := by decide +kernel

/-! ## C27 -/

/-- An empty patch copies the file. -/
theorem C27_empty {C : Type} [TextClump C T] (p : Profile) (l : List T) (rev : Bool) :
    (applyInto p ([] : List C) l rev).run = (.ok {}, bytesOf l) := by
  have : applyInto p ([] : List C) l rev = WM.emit (bytesOf l) (.ok {}) := by
    unfold applyInto applyLoop ConsumableSeq.new
    simp only [pure_bind]
    rw [writeRemainder_eq p l 0 (by omega), cut_full]
    exact WM.emit_bind_pure _ _ _
  rw [this, WM.run_emit]

/-! ## C28 -/

omit [LawfulItem T] in
/-- The five statistics add up to the number of clumps, for every kind of clump, file, direction and writer. -/
theorem C28_statistics {C : Type} [TextClump C T] (p : Profile) (cs : List C) (l : List T) (rev : Bool) (w w' : Writer)
    (st : Statistics) (h : applyInto p cs l rev w = (.ok st, w')) :
    st.clean + st.fuzzy + st.alreadyApplied + st.alreadyAppliedFuzzy + st.failed = cs.length := by
  have : WM.Post (applyInto p cs l rev) (fun st => st.total = cs.length) := by
    unfold applyInto
    refine WM.Post.bind' (applyLoop_total p l rev cs _ 0 {}) fun x hx => WM.Post.bind fun _ => WM.Post.pure ?_
    rw [hx]; simp [Statistics.total]
  exact this w st w' h

example : (applyInto .debug textClumps [ln 'a', ln 'b', ln 'x'] false).run.1 =
    .ok { clean := 1, failed := 1 } := by decide +kernel

/-! ## C29 -/

omit [Item T] [LawfulItem T] in
/-- `will_apply` answers exactly the question how the old lines fit (see `Fits`), in either direction. -/
theorem C29_willApply (p : Profile) (c : DiffClump T) (l : List T) (offset : Int) (rev : Bool) (hw : c.WellFormed)
    (h1 : -(2 : Int) ^ 62 ≤ offset) (h2 : offset < 2 ^ 62) (r : Option WillApply) :
    willApply p c l offset rev = .ok r ↔
      Fits (c.beforeSide rev).items c.contextLengths l ((c.beforeSide rev).start + offset) r := by
  have hs : SideIs p c rev (c.beforeSide rev).start (c.beforeSide rev).items := by
    cases rev with
    | false => exact sideBefore p hw
    | true => exact sideAfter p hw
  have hc : c.contextLengths.1 + c.contextLengths.2 ≤ (c.beforeSide rev).items.length := by
    cases rev with
    | false => exact hw.ctxBefore
    | true => exact hw.ctxAfter
  have hsz : (c.beforeSide rev).start + (c.beforeSide rev).items.length < sizeLimit := by
    cases rev with
    | false => exact hw.sizeBefore
    | true => exact hw.sizeAfter
  obtain ⟨r', e1, e2⟩ := willApply_spec hs hc l (offset := offset)
    (by simp only [sizeLimit, halfWord] at *; omega) (by simp only [sizeLimit, halfWord] at *; omega)
  rw [e1]
  constructor
  · intro h
    rw [← Outcome.ok_inj h]; exact e2
  · intro h
    rw [fits_unique h e2]

/-- A clump with three lines of context for examples: `b` becomes `B` between `1 2 3` and `4 5 6`. -/
def fuzzyClump : DiffClump Str :=
  ⟨(3, 3), ⟨0, [ln '1', ln '2', ln '3', ln 'b', ln '4', ln '5', ln '6']⟩,
           ⟨0, [ln '1', ln '2', ln '3', ln 'B', ln '4', ln '5', ln '6']⟩⟩

example : fuzzyClump.WellFormed := ⟨by decide, by decide, by decide, by decide⟩
example : willApply .debug fuzzyClump [ln 'x', ln '1', ln 'y', ln '3', ln 'b', ln '4', ln 'z'] 0 false =
    .ok none := by decide +kernel
example : willApply .debug fuzzyClump [ln '0', ln 'y', ln '3', ln 'b', ln '4', ln 'z', ln '9'] 0 false =
    .ok (some (.withReductions (2, 2))) := by decide +kernel
example : willApply .debug fuzzyClump [ln '0', ln '2', ln '3', ln 'b', ln '4', ln '5', ln '9'] 0 false =
    .ok (some (.withReductions (1, 1))) := by decide +kernel

/-! ## C30 -/

omit [Item T] [LawfulItem T] in
/-- Reductions trim every side that has context by at least one line, never more than its context, and on the longer
side at least one line of context is kept; with context lengths of at most one there are no reductions. -/
theorem C30_fuzz (p : Profile) (c : DiffClump T) (l : List T) (offset : Int) (rev : Bool) (hw : c.WellFormed)
    (h1 : -(2 : Int) ^ 62 ≤ offset) (h2 : offset < 2 ^ 62) (r : Nat × Nat)
    (h : willApply p c l offset rev = .ok (some (.withReductions r))) :
    r.1 ≤ c.contextLengths.1 ∧ r.2 ≤ c.contextLengths.2 ∧
    (1 ≤ c.contextLengths.1 → 1 ≤ r.1) ∧ (1 ≤ c.contextLengths.2 → 1 ≤ r.2) ∧
    r.1 < max c.contextLengths.1 c.contextLengths.2 ∧ r.2 < max c.contextLengths.1 c.contextLengths.2 ∧
    2 ≤ max c.contextLengths.1 c.contextLengths.2 := by
  obtain ⟨-, k, k1, k2, rfl, -⟩ := (C29_willApply p c l offset rev hw h1 h2 _).1 h
  simp only [redn]
  omega

example := C30_fuzz .debug fuzzyClump [ln '0', ln 'y', ln '3', ln 'b', ln '4', ln 'z', ln '9'] 0 false
  ⟨by decide, by decide, by decide, by decide⟩ (by decide) (by decide) (2, 2) (by decide +kernel)

/-! ## C31 -/

omit [Item T] [LawfulItem T] in
/-- `will_apply_nearby` ends, and answers the question of `Nearest` between the consumed position and the upper limit;
its only other way to end is the underflow in the computation of the upper limit in a debug build. -/
theorem C31_nearby (p : Profile) (c : DiffClump T) (next : Option (DiffClump T)) (l : List T) (consumed : Nat)
    (offset : Int) (rev : Bool) (hw : c.WellFormed) (hn : ∀ n ∈ next, n.WellFormed)
    (ho : -(sizeLimit : Int) < offset ∧ offset < sizeLimit) (hl : l.length < sizeLimit) (hk : consumed < sizeLimit) :
    let side := c.beforeSide rev
    let nextSide := next.map (·.beforeSide rev)
    (p = .debug ∧ Underflow l c.contextLengths side nextSide offset →
      willApplyNearby p c ⟨l, consumed⟩ next offset rev = .panic) ∧
    (¬ (p = .debug ∧ Underflow l c.contextLengths side nextSide offset) → ∀ r,
      (willApplyNearby p c ⟨l, consumed⟩ next offset rev = .ok r ↔
        Nearest side.items c.contextLengths l (side.start + offset) consumed
          (searchLimit l c.contextLengths side nextSide offset) r)) := by
  have hs : SideIs p c rev (c.beforeSide rev).start (c.beforeSide rev).items := by
    cases rev with
    | false => exact sideBefore p hw
    | true => exact sideAfter p hw
  have hc : c.contextLengths.1 + c.contextLengths.2 ≤ (c.beforeSide rev).items.length := by
    cases rev with
    | false => exact hw.ctxBefore
    | true => exact hw.ctxAfter
  have hsz : (c.beforeSide rev).start + (c.beforeSide rev).items.length < sizeLimit := by
    cases rev with
    | false => exact hw.sizeBefore
    | true => exact hw.sizeAfter
  obtain ⟨g1, g2⟩ := nearby_searched p hs hc hsz (l := l) (k := consumed) (next := next) rfl hn ho hl hk
  refine ⟨g1, ?_⟩
  intro hnu r
  obtain ⟨r', e1, e2⟩ := g2 hnu
  rw [e1]
  constructor
  · intro h
    rw [← Outcome.ok_inj h]; exact e2
  · intro h
    rw [nearest_unique h e2]

example : willApplyNearby .debug (DiffClump.mk (0, 0) ⟨3, [ln 'b']⟩ ⟨3, [ln 'B']⟩)
    ⟨[ln 'b', ln 'b', ln 'x', ln 'x', ln 'x', ln 'b', ln 'b'], 0⟩ none 0 false = .ok (some (-2, .cleanly)) := by decide +kernel
example : ¬ Underflow [ln 'b', ln 'b', ln 'x', ln 'x', ln 'x', ln 'b', ln 'b'] (0, 0) ⟨3, [ln 'b']⟩ none 0 := by
  simp [Underflow, searchRoom, coreLen]

/-! ## C32 -/

omit [LawfulItem T] in
/-- Reverse is forward of the patch with before and after exchanged: the same output, statistics, errors and panics on
every writer, and the same answers of `is_already_applied`. -/
theorem C32_reverse (p : Profile) (cs : List (DiffClump T)) (l : List T) :
    applyInto p cs l true = applyInto p (cs.map fun c => DiffClump.mk c.contextLengths c.after c.before) l false ∧
    isAlreadyApplied p cs l true = isAlreadyApplied p (cs.map fun c => DiffClump.mk c.contextLengths c.after c.before) l false :=
  ⟨(Swap.applyAll p false l cs).symm, (Swap.alreadyAll p false l cs).symm⟩

/-! ## C33 -/

omit [Item T] [LawfulItem T] in
theorem alreadyApplied_of_isDiff (q : Profile) {before after : List T} {cs : List (DiffClump T)}
    (hb : before.length ≤ maxLines) (ha : after.length ≤ maxLines) (hd : IsDiff before after cs) :
    isAlreadyApplied q cs after false = .ok true := by
  have hw := hd.wellFormed hb ha
  obtain ⟨skip, hd'⟩ := hd.diffed
  have hst : ∀ c ∈ cs, StandsAt c.after.items after (c.after.start + 0) := by
    intro c hc
    rw [Int.add_zero]
    exact (hd'.stands c hc).2
  unfold isAlreadyApplied
  clear hd hd'
  induction cs with
  | nil => rfl
  | cons c cs ih =>
    unfold isAlreadyAppliedLoop clumpIsAlreadyApplied
    rw [show (!false) = true from rfl, (C29_willApply q c after 0 true (hw c (by simp)) (by decide) (by decide) (some .cleanly)).2
      (hst c (by simp))]
    exact ih (fun c hc => hw c (by simp [hc])) (fun c hc => hst c (by simp [hc]))

/-- A generated patch is recognised as already applied on its target; and in reverse on its source. -/
theorem C33_already (p q : Profile) (before after : List T) (context : Nat) (hctx : context ≤ 255)
    (hb : before.length ≤ maxLines) (ha : after.length ≤ maxLines) (cs : List (DiffClump T))
    (h : diffClumps p before after context = .ok cs) :
    isAlreadyApplied q cs after false = .ok true ∧ isAlreadyApplied q cs before true = .ok true := by
  have hd := (diffClumps_full hctx h).1
  refine ⟨alreadyApplied_of_isDiff q hb ha hd, ?_⟩
  have := alreadyApplied_of_isDiff q ha hb hd.swap
  rwa [Swap.alreadyAll] at this

example : isAlreadyApplied .debug textClumps textAfter false = .ok true ∧
    isAlreadyApplied .debug textClumps textBefore false = .ok false := by decide +kernel

/-! ## C37 -/

/-- A failing writer never corrupts: with room for `n` bytes, either the whole output fits and everything is as with a
writer that never fails, or the result is an I/O error and exactly the first `n` bytes of the output were written. -/
theorem C37_writer {C : Type} [TextClump C T] (p : Profile) (cs : List C) (l : List T) (rev : Bool) (n : Nat) :
    let (r, out) := (applyInto p cs l rev).run
    applyInto p cs l rev ⟨[], some n⟩ =
      if out.length ≤ n then (r, ⟨out, some (n - out.length)⟩) else (.ioErr, ⟨out.take n, some 0⟩) := by
  have h := (norm_applyInto p cs l rev).eq_run
  generalize hr : (applyInto p cs l rev).run = x at h
  rw [h, WM.emit_apply]
  simp

example : (applyInto .debug textClumps textBefore false ⟨[], some 7⟩).1 = .ioErr := by decide +kernel

end PwDiff
