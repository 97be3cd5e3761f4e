import Verif.Props.Apply
import Verif.Proofs.Fuzzy

/-! # C34–C36, C38, C39, C58: patching files other than the source -/

namespace PwDiff

open ChangeBasics TextClump

variable {T : Type} [DecidableEq T] [Item T] [LawfulItem T]

/-- A text given by its one-letter lines, for examples. -/
def letters (s : List Char) : List Str := s.map ln

/-! ## C34 -/

/-- The full statement of C34. -/
def C34_statement : Prop :=
  ∀ (p : Profile) (before after : List Str) (context : Nat) (cs : List (DiffClump Str)), context ≤ 255 →
    diffClumps p before after context = .ok cs →
    (applyInto p cs after false).run = (.ok { alreadyApplied := cs.length }, bytesOf after)

/-- It fails: the patch that doubles a line can be applied again and again. -/
theorem C34_refuted : ¬ C34_statement := by
  intro h
  have := h .debug (letters ['a']) (letters ['a', 'a']) 3 [⟨(1, 0), ⟨0, letters ['a']⟩, ⟨0, letters ['a', 'a']⟩⟩]
    (by decide) (by decide +kernel)
  revert this
  decide +kernel

/-- What holds: if the old lines of no clump, not even trimmed, are found anywhere in `after`, then applying the patch to
`after` leaves it unchanged and counts every clump as already applied.  (In a debug build the lines the last clump
changes must not be more than there are lines in the file.) -/
theorem C34_partial (p q : Profile) (before after : List T) (context : Nat) (hctx : context ≤ 255)
    (hb : before.length ≤ maxLines) (ha : after.length ≤ maxLines) (cs : List (DiffClump T))
    (h : diffClumps p before after context = .ok cs)
    (hno : ∀ c ∈ cs, NowhereFits after c.contextLengths c.before)
    (hroom : q = .debug → ∀ c ∈ cs.getLast?, coreLen c.contextLengths c.before ≤ after.length) :
    (applyInto q cs after false).run = (.ok { alreadyApplied := cs.length }, bytesOf after) := by
  obtain ⟨hd, changes, hch, hd2⟩ := diffClumps_full hctx h
  have := patching_already q (k := 0) (st := {}) hd2 (by omega) hno (fun hq => roomy_of_last hd2 (hroom hq))
  rw [(C57_refines q after cs (hd.wellFormed hb ha) (hd.size hb ha ha) _ _).2 this]
  simp

/-- `abcdefg` to `abcXdefg`. -/
def insertClump : DiffClump Str :=
  ⟨(3, 3), ⟨0, letters ['a', 'b', 'c', 'd', 'e', 'f']⟩, ⟨0, letters ['a', 'b', 'c', 'X', 'd', 'e', 'f']⟩⟩

example : diffClumps .debug (letters ['a', 'b', 'c', 'd', 'e', 'f', 'g']) (letters ['a', 'b', 'c', 'X', 'd', 'e', 'f', 'g']) 3 =
    .ok [insertClump] := by decide +kernel
example : NowhereFits (letters ['a', 'b', 'c', 'X', 'd', 'e', 'f', 'g']) insertClump.contextLengths insertClump.before :=
  nowhere_of_check (by decide +kernel)
example : coreLen insertClump.contextLengths insertClump.before ≤ 8 := by decide

/-- Exactly when it holds: if and only if the old lines of no clump are found where the program looks for them.  If they are,
some clump is applied a second time, or the program panics. -/
theorem C34_exact (p q : Profile) (before after : List T) (context : Nat) (hctx : context ≤ 255)
    (hb : before.length ≤ maxLines) (ha : after.length ≤ maxLines) (cs : List (DiffClump T))
    (h : diffClumps p before after context = .ok cs) :
    ((applyInto q cs after false).run = (.ok { alreadyApplied := cs.length }, bytesOf after) ↔ Unfound q after 0 cs) ∧
    (¬ Unfound q after 0 cs → ∀ st out, (applyInto q cs after false).run = (.ok st, out) → 1 ≤ st.clean + st.fuzzy) := by
  obtain ⟨hd, changes, hch, hd2⟩ := diffClumps_full hctx h
  have hr := C57_refines q after cs (hd.wellFormed hb ha) (hd.size hb ha ha)
  refine ⟨⟨fun e => unfound_of hd2 (Nat.zero_le _) ((hr _ _).1 e) rfl rfl, fun u => ?_⟩, fun n st out e => ?_⟩
  · rw [(hr _ _).2 (unfound_already q (st := {}) hd2 (Nat.zero_le _) u)]
    simp
  · have := unfound_of hd2 (Nat.zero_le _) ((hr _ _).1 e)
    refine Nat.pos_of_ne_zero fun h0 => n (this ?_ ?_) <;> simp only <;> omega

/-- The old lines of the first clump, `pXq`, are found in the file, but after the limit of the search for them, which is given by the
place of the second clump. -/
def movedClumps : List (DiffClump Str) :=
  [⟨(1, 1), ⟨0, letters ['p', 'X', 'q']⟩, ⟨0, letters ['p', 'q']⟩⟩,
   ⟨(1, 1), ⟨5, letters ['t', 'u']⟩, ⟨4, letters ['t', 'p', 'X', 'q', 'u']⟩⟩]

example : diffClumps .debug (letters ['p', 'X', 'q', 'r', 's', 't', 'u'])
    (letters ['p', 'q', 'r', 's', 't', 'p', 'X', 'q', 'u']) 1 = .ok movedClumps := by decide +kernel
example : ¬ NowhereFits (letters ['p', 'q', 'r', 's', 't', 'p', 'X', 'q', 'u']) (1, 1) ⟨0, letters ['p', 'X', 'q']⟩ :=
  fun h => (h 5).1 ((standsB_iff _ _ 5).1 (by decide +kernel))
example : Unfound .release (letters ['p', 'q', 'r', 's', 't', 'p', 'X', 'q', 'u']) 0 movedClumps :=
  (C34_exact .debug .release (letters ['p', 'X', 'q', 'r', 's', 't', 'u']) _ 1 (by decide) (by decide) (by decide) movedClumps
    (by decide +kernel)).1.1 (by decide +kernel)
/-- Doubling a line: the old line is found again, and the patch is applied a second time. -/
example : ¬ Unfound .release (letters ['a', 'a']) 0 [⟨(1, 0), ⟨0, letters ['a']⟩, ⟨0, letters ['a', 'a']⟩⟩] := fun h => by
  have := (C34_exact .debug .release (letters ['a']) _ 1 (by decide) (by decide) (by decide)
    [⟨(1, 0), ⟨0, letters ['a']⟩, ⟨0, letters ['a', 'a']⟩⟩] (by decide +kernel)).1.2 h
  revert this; decide +kernel

/-! ## C35 -/

/-- The full statement of C35. -/
def C35_statement : Prop :=
  ∀ (p : Profile) (c : DiffClump Str) (l : List Str) (k : Nat) (offset : Int) (r : Nat × Nat), c.WellFormed →
    l.length < sizeLimit → k ≤ l.length →
    willApply p c l offset false = .ok (some (.withReductions r)) →
    (clumpApplyInto p c ⟨l, k⟩ offset (some r) false).run.2 =
      bytesOf (cut l k (c.before.start + offset + r.1).toNat) ++ bytesOf (trim r c.after.items)

/-- The clump from `abcdefghij` to `abcdefgXhij`, which does not start at line 0. -/
def lateClump : DiffClump Str :=
  ⟨(3, 3), ⟨4, letters ['e', 'f', 'g', 'h', 'i', 'j']⟩, ⟨4, letters ['e', 'f', 'g', 'X', 'h', 'i', 'j']⟩⟩

/-- It fails: nothing at all is written for a clump that starts at line 4 (the code panics). -/
theorem C35_refuted : ¬ C35_statement := by
  intro h
  have := h .release lateClump (letters ['a', 'b', 'c', 'd', '0', 'f', 'g', 'h', 'i', 'j']) 0 0 (1, 1)
    ⟨by decide, by decide, by decide, by decide⟩ (by decide) (by decide) (by decide +kernel)
  revert this
  decide +kernel

/-- What holds: with reductions `r`, the text up to the match is written; then, if the new lines start at a line not
beyond `r.2`, the new lines *at positions `start + r.1` up to `start + len - r.2`* (the right ones exactly if `start`
is 0); otherwise there is a panic. -/
theorem C35_partial (p : Profile) (c : DiffClump T) (l : List T) (k : Nat) (offset : Int) (r : Nat × Nat) (hw : c.WellFormed)
    (hl : l.length < sizeLimit) (hk : k ≤ l.length) (ho : -(2 : Int) ^ 62 ≤ offset ∧ offset < 2 ^ 62)
    (h : willApply p c l offset false = .ok (some (.withReductions r))) :
    let place := (c.before.start + offset + r.1).toNat
    (c.after.start ≤ r.2 → clumpApplyInto p c ⟨l, k⟩ offset (some r) false =
      WM.emit (bytesOf (cut l k place) ++
          bytesOf (cut c.after.items (c.after.start + r.1) (c.after.start + c.after.items.length - r.2)))
        (.ok ⟨l, max k place + (c.before.items.length - r.1 - r.2)⟩)) ∧
    (c.after.start = 0 → cut c.after.items (c.after.start + r.1) (c.after.start + c.after.items.length - r.2) =
      trim r c.after.items) ∧
    (r.2 < c.after.start → clumpApplyInto p c ⟨l, k⟩ offset (some r) false = WM.emit (bytesOf (cut l k place)) .panic) := by
  have hf := (C29_willApply p c l offset false hw ho.1 ho.2 _).1 h
  obtain ⟨b1, b2, b3, b4⟩ := fits_some_bounds hw.ctxBefore hf
  simp only [WillApply.redn] at b1 b2 b3 b4
  have e : (c.beforeSide false) = c.before := rfl
  rw [e] at b3 b4
  have hcb := hw.ctxBefore
  have hca := hw.ctxAfter
  have := clumpApplyInto_some (sideBefore p hw) (sideAfter p hw) l k (offset := offset)
    (pos := (c.before.start + offset + r.1).toNat) (r := r) (by omega) (by omega)
    (by simp only [halfWord]; omega) (by omega) (by omega) (by simp only [sizeLimit, halfWord] at *; omega)
    (by simp only [sizeLimit, halfWord] at *; omega)
  refine ⟨?_, ?_, ?_⟩
  · intro hle
    rw [this, if_pos hle]
  · intro h0
    rw [h0, trim_eq_cut, Nat.zero_add, Nat.zero_add]
  · intro hlt
    rw [this, if_neg (by omega)]

example : lateClump.WellFormed := ⟨by decide, by decide, by decide, by decide⟩
example : willApply .debug lateClump (letters ['a', 'b', 'c', 'd', '0', 'f', 'g', 'h', 'i', 'j']) 0 false =
    .ok (some (.withReductions (1, 1))) := by decide +kernel

/-- In particular every fuzzy application of a clump whose new lines start beyond line 255 panics. -/
theorem C35_panics (p : Profile) (c : DiffClump T) (l : List T) (k : Nat) (offset : Int) (r : Nat × Nat) (hw : c.WellFormed)
    (hctx : c.contextLengths.2 ≤ 255) (hlate : 255 < c.after.start)
    (hl : l.length < sizeLimit) (hk : k ≤ l.length) (ho : -(2 : Int) ^ 62 ≤ offset ∧ offset < 2 ^ 62)
    (h : willApply p c l offset false = .ok (some (.withReductions r))) :
    (clumpApplyInto p c ⟨l, k⟩ offset (some r) false).run.1 = .panic := by
  have hr := (C30_fuzz p c l offset false hw ho.1 ho.2 r h).2.1
  rw [(C35_partial p c l k offset r hw hl hk ho h).2.2 (by omega), WM.run_emit]

set_option maxRecDepth 4000 in
/-- A line of context at the end of a long file has changed: a panic. -/
example : (clumpApplyInto .release (⟨(3, 3), ⟨300, letters ['d', 'e', 'f', 'g', 'h', 'i', 'j']⟩, ⟨300, letters ['d', 'e', 'f', 'X', 'h', 'i', 'j']⟩⟩ :
    DiffClump Str) ⟨List.replicate 300 (ln 'a') ++ letters ['0', 'e', 'f', 'g', 'h', 'i', 'j'], 0⟩ 0 (some (1, 1)) false).run.1 = .panic :=
  C35_panics .release _ _ _ _ _ ⟨by decide, by decide, by decide, by decide⟩ (by decide) (by decide) (by decide) (by decide) (by decide)
    (by decide +kernel)

/-! ## C36 -/

/-- The full statement of C36. -/
def C36_statement : Prop :=
  ∀ (p : Profile) (cs : List (DiffClump Str)) (l : List Str), (∀ c ∈ cs, c.WellFormed) →
    l.length + weight cs < sizeLimit →
    (∀ c ∈ cs, NowhereFits l c.contextLengths c.before ∧ NowhereFits l c.contextLengths c.after) →
    (applyInto p cs l false).run =
      (.ok { failed := cs.length }, cs.flatMap (fun c => conflict c.before.items c.after.items) ++ bytesOf l)

/-- It fails in a debug build: there is a panic if the file is shorter than what the clump changes. -/
theorem C36_refuted : ¬ C36_statement := by
  intro h
  have := h .debug [⟨(0, 0), ⟨0, letters ['a', 'b']⟩, ⟨0, letters ['c']⟩⟩] (letters ['x'])
    (by
      intro c hc
      obtain rfl := List.mem_singleton.1 hc
      exact ⟨by decide, by decide, by decide, by decide⟩)
    (by decide)
    (by
      intro c hc
      obtain rfl := List.mem_singleton.1 hc
      exact ⟨nowhere_of_check (by decide +kernel), nowhere_of_check (by decide +kernel)⟩)
  revert this
  decide +kernel

/-- What holds: in a release build the full statement, and in a debug build as well unless a search limit underflows. -/
theorem C36_partial (p : Profile) (cs : List (DiffClump T)) (l : List T) (hw : ∀ c ∈ cs, c.WellFormed)
    (hsz : l.length + weight cs < sizeLimit)
    (hno : ∀ c ∈ cs, NowhereFits l c.contextLengths c.before ∧ NowhereFits l c.contextLengths c.after)
    (hroom : p = .debug → Roomy l DiffClump.before cs ∧ Roomy l DiffClump.after cs) :
    (applyInto p cs l false).run =
      (.ok { failed := cs.length }, cs.flatMap (fun c => conflict c.before.items c.after.items) ++ bytesOf l) := by
  have := patching_failed p (l := l) (k := 0) (st := {}) (by omega) (fun c hc => (hno c hc).1) (fun c hc => (hno c hc).2) hroom
  rw [(C57_refines p l cs hw hsz _ _).2 this]
  simp

example : NowhereFits (letters ['x', 'y']) (0, 0) ⟨0, letters ['a', 'b']⟩ ∧ NowhereFits (letters ['x', 'y']) (0, 0) ⟨0, letters ['c']⟩ :=
  ⟨nowhere_of_check (by decide +kernel), nowhere_of_check (by decide +kernel)⟩
example : (applyInto .debug [(⟨(0, 0), ⟨0, letters ['a', 'b']⟩, ⟨0, letters ['c']⟩⟩ : DiffClump Str)] (letters ['x', 'y']) false).run.1 =
    .ok { failed := 1 } := by decide +kernel

/-! ## C38 -/

/-- The full statement of C38. -/
def C38_statement : Prop :=
  ∀ (p : Profile) (c : DiffClump Str) (cs : List (DiffClump Str)) (l : List Str) (d : Int),
    (∀ x ∈ c :: cs, x.WellFormed) → l.length + weight (c :: cs) < sizeLimit → d ≠ 0 → StandInOrder l d 0 (c :: cs) →
    (∀ d' : Int, d' ≠ d → Fits c.before.items c.contextLengths l (c.before.start + d') none) →
    (applyInto p (c :: cs) l false).run.2 = bytesOf (patchedFrom l d 0 (c :: cs))

/-- It fails: the search for the first clump stops before the undisplaced place of the second one.  Here five lines are
put in front of `abcdefghij` and the patch to `abcXYdefgZhij` is applied: the first clump fails. -/
theorem C38_refuted : ¬ C38_statement := by
  intro h
  have := h .release ⟨(1, 1), ⟨2, letters ['c', 'd']⟩, ⟨2, letters ['c', 'X', 'Y', 'd']⟩⟩
    [⟨(1, 1), ⟨6, letters ['g', 'h']⟩, ⟨8, letters ['g', 'Z', 'h']⟩⟩]
    (letters ['0', '0', '0', '0', '0', 'a', 'b', 'c', 'd', 'e', 'f', 'g', 'h', 'i', 'j']) 5
    (by
      intro x hx
      simp only [List.mem_cons, List.not_mem_nil, or_false] at hx
      rcases hx with rfl | rfl <;> exact ⟨by decide, by decide, by decide, by decide⟩)
    (by decide) (by decide)
    (by
      refine ⟨by decide, ?_, by decide, ?_, by show _ ≤ List.length _; decide⟩
      · exact (standsB_iff _ _ 7).1 (by decide +kernel)
      · exact (standsB_iff _ _ 11).1 (by decide +kernel))
    (by
      intro d' hd'
      refine ⟨?_, ?_⟩
      · intro hs
        have hb := (standsAt_iff _ _ _).1 hs
        simp only [letters, List.length_map, List.length_cons, List.length_nil] at hb
        have key : ∀ q : Nat, q < 14 → q ≠ 7 → standsB (letters ['c', 'd'])
            (letters ['0', '0', '0', '0', '0', 'a', 'b', 'c', 'd', 'e', 'f', 'g', 'h', 'i', 'j']) q = false := by decide +kernel
        have hq : (2 + d').toNat ≠ 7 := by omega
        have h1 := key (2 + d').toNat (by omega) hq
        have h2 : StandsAt (letters ['c', 'd']) (letters ['0', '0', '0', '0', '0', 'a', 'b', 'c', 'd', 'e', 'f', 'g', 'h', 'i', 'j'])
            (((2 + d').toNat : Nat) : Int) := by
          rw [show (((2 + d').toNat : Nat) : Int) = 2 + d' by omega]; exact hs
        rw [← standsB_iff, h1] at h2
        simp at h2
      · intro k h1 h2
        simp only at h2
        omega)
  revert this
  decide +kernel

/-- What holds: if the displaced place is before the search limit, then all clumps are applied at displacement `d`; the
first one counts as fuzzy, the others as clean. -/
theorem C38_partial (p : Profile) (c : DiffClump T) (cs : List (DiffClump T)) (l : List T) (d : Int)
    (hw : ∀ x ∈ c :: cs, x.WellFormed) (hsz : l.length + weight (c :: cs) < sizeLimit) (hd : d ≠ 0)
    (hs : StandInOrder l d 0 (c :: cs))
    (hlim : 0 < d → c.before.start + d < searchLimit l c.contextLengths c.before (cs.head?.map DiffClump.before) 0)
    (hnear : ∀ d' : Int, d'.natAbs < d.natAbs → Fits c.before.items c.contextLengths l (c.before.start + d') none)
    (htie : 0 < d → Fits c.before.items c.contextLengths l (c.before.start - d) none)
    (hroom : ¬ (p = .debug ∧ Underflow l c.contextLengths c.before (cs.head?.map DiffClump.before) 0)) :
    (applyInto p (c :: cs) l false).run =
      (.ok { fuzzy := 1, clean := cs.length }, bytesOf (patchedFrom l d 0 (c :: cs))) :=
  (C57_refines p l _ hw hsz _ _).2 (patching_displaced p hd hs hlim hnear htie hroom)

/-- The patch from `abcdefghij` to `abcXYdefgZhij` with one line of context. -/
def movedClump1 : DiffClump Str := ⟨(1, 1), ⟨2, letters ['c', 'd']⟩, ⟨2, letters ['c', 'X', 'Y', 'd']⟩⟩
def movedClump2 : DiffClump Str := ⟨(1, 1), ⟨6, letters ['g', 'h']⟩, ⟨8, letters ['g', 'Z', 'h']⟩⟩
/-- `abcdefghij` with four lines put in front and two at the end. -/
def movedText : List Str :=
  letters ['0', '0', '0', '0', 'a', 'b', 'c', 'd', 'e', 'f', 'g', 'h', 'i', 'j', '1', '1']

/-- `c d` is found in `movedText` at line 6 only. -/
theorem movedText_only (pos : Int) (h : pos ≠ 6) : Fits movedClump1.before.items movedClump1.contextLengths movedText pos none := by
  refine ⟨?_, ?_⟩
  · intro hs
    have hb := (standsAt_iff _ _ _).1 hs
    have hlen : movedText.length = 16 := by decide
    have hlen' : movedClump1.before.items.length = 2 := by decide
    rw [hlen, hlen'] at hb
    have key : ∀ q : Nat, q < 15 → q ≠ 6 → standsB movedClump1.before.items movedText q = false := by decide +kernel
    have h1 := key pos.toNat (by omega) (by omega)
    have h2 : StandsAt movedClump1.before.items movedText ((pos.toNat : Nat) : Int) := by
      rw [show ((pos.toNat : Nat) : Int) = pos by omega]; exact hs
    rw [← standsB_iff, h1] at h2
    simp at h2
  · intro k h1 h2
    simp only [movedClump1] at h2
    omega

theorem moved_wellFormed : ∀ x ∈ [movedClump1, movedClump2], x.WellFormed := by
  intro x hx
  simp only [List.mem_cons, List.not_mem_nil, or_false] at hx
  rcases hx with rfl | rfl <;> exact ⟨by decide, by decide, by decide, by decide⟩

theorem moved_inOrder : StandInOrder movedText 4 0 [movedClump1, movedClump2] := by
  refine ⟨by decide, ?_, by decide, ?_, by show _ ≤ List.length _; decide⟩
  · exact (standsB_iff _ _ 6).1 (by decide +kernel)
  · exact (standsB_iff _ _ 10).1 (by decide +kernel)

/-- The hypotheses of `C38_partial` met. -/
example : (applyInto .debug [movedClump1, movedClump2] movedText false).run =
    (.ok { fuzzy := 1, clean := 1 },
      bytesOf (letters ['0', '0', '0', '0', 'a', 'b', 'c', 'X', 'Y', 'd', 'e', 'f', 'g', 'Z', 'h', 'i', 'j', '1', '1'])) :=
  C38_partial .debug movedClump1 [movedClump2] movedText 4 moved_wellFormed (by decide) (by decide) moved_inOrder
    (fun _ => by decide) (fun d' hd' => movedText_only _ (by simp only [movedClump1]; omega))
    (fun _ => movedText_only _ (by decide)) (by rintro ⟨-, h⟩; revert h; simp [Underflow]; decide)

/-! ## C58 -/

/-- A patch applied to a file into which text was put before and after what the patch was made for: the change is made
and the added text is kept.  The conditions are those of the nearby search: the first clump fits nowhere nearer, and
its displaced place is before the search limit. -/
theorem C58_surrounded (p q : Profile) (before after pre post : List T) (context : Nat) (hctx : context ≤ 255)
    (hb : before.length ≤ maxLines) (ha : after.length ≤ maxLines) (hl : (pre ++ before ++ post).length ≤ maxLines)
    (c : DiffClump T) (cs : List (DiffClump T)) (h : diffClumps p before after context = .ok (c :: cs))
    (hpre : pre ≠ [])
    (hlim : c.before.start + pre.length <
      searchLimit (pre ++ before ++ post) c.contextLengths c.before (cs.head?.map DiffClump.before) 0)
    (hnear : ∀ d' : Int, d'.natAbs ≤ pre.length → d' ≠ pre.length →
      Fits c.before.items c.contextLengths (pre ++ before ++ post) (c.before.start + d') none) :
    ∃ text, (applyInto q (c :: cs) before false).run = (.ok { clean := cs.length + 1 }, bytesOf text) ∧
      (applyInto q (c :: cs) (pre ++ before ++ post) false).run =
        (.ok { fuzzy := 1, clean := cs.length }, bytesOf (pre ++ text ++ post)) := by
  obtain ⟨hd, changes, hch, hd2⟩ := diffClumps_full hctx h
  have hpl : 0 < pre.length := List.length_pos_iff.2 hpre
  obtain ⟨hs, hp⟩ := hd2.standInOrder.displace pre post
  rw [Nat.zero_add] at hs hp
  have hs0 : StandInOrder (pre ++ before ++ post) pre.length 0 (c :: cs) := ⟨by omega, hs.2⟩
  have hp0 : patchedFrom (pre ++ before ++ post) pre.length 0 (c :: cs) = pre ++ patchedFrom before 0 0 (c :: cs) ++ post := by
    rw [List.append_assoc pre (patchedFrom ..), ← hp]
    simp only [patchedFrom, ← List.append_assoc]
    congr 2
    have hle : pre.length ≤ (c.before.start + (pre.length : Int)).toNat := by omega
    rw [← cut_append _ (Nat.zero_le _) hle]
    congr 1
    simp [cut]
  refine ⟨patchedFrom before 0 0 (c :: cs), ?_, ?_⟩
  · rw [apply_to_source q hd hb ha, WM.run_emit]
    rfl
  · rw [← hp0]
    refine C38_partial q c cs _ _ (hd.wellFormed hb ha) (hd.size hb ha hl) (by omega) hs0 (fun _ => hlim)
      (fun d' hd' => hnear d' (by omega) (by omega)) (fun _ => ?_) ?_
    · have := hnear (-(pre.length : Int)) (by omega) (by omega)
      rwa [← Int.sub_eq_add_neg] at this
    · rintro ⟨-, hu⟩
      simp only [Underflow, searchLimit] at hu hlim
      omega

/-- The hypotheses of `C58_surrounded` met. -/
example : ∃ text, (applyInto .debug [movedClump1, movedClump2] (letters ['a', 'b', 'c', 'd', 'e', 'f', 'g', 'h', 'i', 'j']) false).run =
      (.ok { clean := 2 }, bytesOf text) ∧
    (applyInto .debug [movedClump1, movedClump2] movedText false).run =
      (.ok { fuzzy := 1, clean := 1 }, bytesOf (letters ['0', '0', '0', '0'] ++ text ++ letters ['1', '1'])) :=
  C58_surrounded .debug .debug (letters ['a', 'b', 'c', 'd', 'e', 'f', 'g', 'h', 'i', 'j'])
    (letters ['a', 'b', 'c', 'X', 'Y', 'd', 'e', 'f', 'g', 'Z', 'h', 'i', 'j']) (letters ['0', '0', '0', '0']) (letters ['1', '1'])
    1 (by decide) (by decide) (by decide) (by decide) movedClump1 [movedClump2] (by decide +kernel) (by decide) (by decide)
    (fun d' h1 h2 => movedText_only _ (by simp only [movedClump1]; have : d' ≠ 4 := h2; omega))

/-! ## C39 -/

/-- The full statement of C39. -/
def C39_statement (p : Profile) : Prop :=
  ∀ (before after l : List Str) (context : Nat) (cs : List (DiffClump Str)), context ≤ 255 →
    diffClumps p before after context = .ok cs → ∃ st, (applyInto p cs l false).run.1 = .ok st

/-- It fails in both build profiles: the change from `abcdefghij` to `abcdefgXhij` applied to a file in which the first
line of the context differs. -/
theorem C39_refuted (p : Profile) : ¬ C39_statement p := by
  intro h
  obtain ⟨st, h⟩ := h (letters ['a', 'b', 'c', 'd', 'e', 'f', 'g', 'h', 'i', 'j'])
    (letters ['a', 'b', 'c', 'd', 'e', 'f', 'g', 'X', 'h', 'i', 'j'])
    (letters ['a', 'b', 'c', 'd', '0', 'f', 'g', 'h', 'i', 'j']) 3 [lateClump] (by decide) (by cases p <;> decide +kernel)
  have h' : (applyInto p [lateClump] (letters ['a', 'b', 'c', 'd', '0', 'f', 'g', 'h', 'i', 'j']) false).run.1 = .panic := by
    cases p <;> decide +kernel
  rw [h'] at h
  simp at h

/-- What holds: `apply_into` always ends (with success or a panic), and it ends with success if old lines are found
only untrimmed (or in a clump starting at line 0), new lines are found nowhere, and in a debug build also the lines the last clump
changes are not more than the lines of the file and no clump starts earlier in `after` than in `before`. -/
theorem C39_partial (p q : Profile) (before after l : List T) (context : Nat) (hctx : context ≤ 255)
    (hb : before.length ≤ maxLines) (ha : after.length ≤ maxLines) (hl : l.length ≤ maxLines)
    (cs : List (DiffClump T)) (h : diffClumps p before after context = .ok cs) :
    ((∃ st, (applyInto q cs l false).run.1 = .ok st) ∨ (applyInto q cs l false).run.1 = .panic) ∧
    ((∀ c ∈ cs, c.after.start = 0 ∨ ∀ pos w, Fits c.before.items c.contextLengths l pos (some w) → w = .cleanly) →
     (∀ c ∈ cs, NowhereFits l c.contextLengths c.after) →
     (q = .debug → (∀ c ∈ cs, c.before.start ≤ c.after.start) ∧
       ∀ c ∈ cs.getLast?, coreLen c.contextLengths c.before ≤ l.length ∧ coreLen c.contextLengths c.after ≤ l.length) →
     ∃ st, (applyInto q cs l false).run.1 = .ok st) := by
  obtain ⟨hd, changes, hch, hd2⟩ := diffClumps_full hctx h
  obtain ⟨out, r, e1, e2⟩ := applyInto_refines q l cs (hd.wellFormed hb ha) (hd.size hb ha hl)
  rw [e1, WM.run_emit]
  refine ⟨e2.ok_or_panic, ?_⟩
  intro hold hnew hdebug
  refine patching_no_panic e2 hd2 (fun c hc => (hd.ctx c hc).1) (by omega) (by omega) ?_ hnew
    (fun hq => (hdebug hq).2) (fun hq => (hdebug hq).1)
  intro c hc pos w hw
  rcases hold c hc with h0 | h0
  · cases w with
    | cleanly => exact ⟨_, rfl⟩
    | withReductions r => exact ⟨_, if_pos (by omega)⟩
  · rw [h0 pos w hw]; exact ⟨_, rfl⟩

example : (applyInto .debug [lateClump] (letters ['d', 'e', 'f', 'g', 'h', 'i', 'j', 'k', 'l']) false).run =
    (.ok { fuzzy := 1 }, bytesOf (letters ['d', 'e', 'f', 'g', 'X', 'h', 'i', 'j', 'k', 'l'])) := by decide +kernel
example : NowhereFits (letters ['d', 'e', 'f', 'g', 'h', 'i', 'j', 'k', 'l']) lateClump.contextLengths lateClump.after :=
  nowhere_of_check (by decide +kernel)
example : ∀ pos w, Fits lateClump.before.items lateClump.contextLengths (letters ['d', 'e', 'f', 'g', 'h', 'i', 'j', 'k', 'l']) pos
    (some w) → w = .cleanly := onlyClean_of_check (by decide +kernel)
example : lateClump.before.start ≤ lateClump.after.start ∧ coreLen lateClump.contextLengths lateClump.before ≤ 9 ∧
    coreLen lateClump.contextLengths lateClump.after ≤ 9 := by decide

/-! ## C39 with little context -/

section
variable {T : Type} [DecidableEq T] [Item T] [LawfulItem T]

/-- In particular a release build never panics on a patch made with at most one line of context, whatever the file, unless new lines
of the patch are already there. -/
theorem C39_context (p : Profile) (before after l : List T) (context : Nat) (hctx : context ≤ 1)
    (hb : before.length ≤ maxLines) (ha : after.length ≤ maxLines) (hl : l.length ≤ maxLines) (cs : List (DiffClump T))
    (h : diffClumps p before after context = .ok cs)
    (hno : ∀ c ∈ cs, ∀ pos, ¬ StandsAt c.after.items l pos) : ∃ st, (applyInto .release cs l false).run.1 = .ok st := by
  have hc : ∀ c ∈ cs, max c.contextLengths.1 c.contextLengths.2 ≤ 1 := by
    intro c hc
    obtain ⟨changes, ccs, -, -, e3, -, e5⟩ := diffClumps_spec p before after context
    obtain rfl := Outcome.ok_inj (e5.symm.trans h)
    obtain ⟨cc, hcc, rfl⟩ := List.mem_map.1 hc
    obtain ⟨i, j, ie, je, ht⟩ := e3.cover.mem cc hcc
    obtain ⟨-, k1, k2, -, -⟩ := clump_context (by omega) (e3.each cc hcc) ht
    simp only [toDiffClump]
    omega
  refine (C39_partial p .release before after l context (by omega) hb ha hl cs h).2 ?_ ?_ (fun h => nomatch h)
  · intro c hcc
    refine .inr fun pos w hw => ?_
    have := hc c hcc
    cases w with
    | cleanly => rfl
    | withReductions r =>
      obtain ⟨-, k, h1, h2, -⟩ := hw
      omega
  · intro c hcc pos
    have := hc c hcc
    exact ⟨hno c hcc pos, fun k h1 h2 => by omega⟩

end

/-- The patch from `hij` to `hXij` on other files. -/
example := C39_context .debug (letters ['h', 'i', 'j']) (letters ['h', 'X', 'i', 'j']) (letters ['q', 'h', 'i']) 1 (by decide) (by decide) (by decide) (by decide)
  [⟨(1, 1), ⟨0, letters ['h', 'i']⟩, ⟨0, letters ['h', 'X', 'i']⟩⟩] (by decide +kernel)
  (by intro c hc pos ⟨pre, post, h, _⟩
      rw [List.mem_singleton.1 hc] at h
      have : ln 'X' ∈ letters ['q', 'h', 'i'] := by rw [h]; simp [letters, ln]
      revert this
      decide)

/-- The exception is needed: where the first clump is already applied, the old lines of the second may be found among what has been
dealt with; then more lines are taken than the file has. -/
theorem C39_contextRefuted (p : Profile) : ∃ (before after l : List Str) (cs : List (DiffClump Str)),
    diffClumps p before after 1 = .ok cs ∧ (applyInto p cs l false).run.1 = .panic := by
  refine ⟨letters ['a', 'm', 'n', 'o', 'y'], letters ['b', 'c', 'd', 'o', 'y', 'e', 'm', 'n', 'o', 'Z'], letters ['b', 'c', 'd', 'o', 'y', 'e', 'm'],
    [⟨(0, 1), ⟨0, letters ['a', 'm']⟩, ⟨0, letters ['b', 'c', 'd', 'o', 'y', 'e', 'm']⟩⟩,
     ⟨(1, 0), ⟨3, letters ['o', 'y']⟩, ⟨8, letters ['o', 'Z']⟩⟩], ?_⟩
  cases p <;> decide +kernel

/-! ## C38, exactly -/

section

variable {T : Type} [DecidableEq T] [Item T] [LawfulItem T]

omit [DecidableEq T] [LawfulItem T] in
theorem Patching.countsGrow {p : Profile} {l : List T} {k : Nat} {offset : Int} {st st' : Statistics} {cs : List (DiffClump T)}
    {out : List UInt8} {r : Outcome Statistics} (h : Patching p l k offset st cs out r) (hr : r = .ok st') :
    st.alreadyApplied + st.alreadyAppliedFuzzy + st.failed ≤ st'.alreadyApplied + st'.alreadyAppliedFuzzy + st'.failed := by
  induction h with
  | finish => cases hr; exact Nat.le_refl _
  | overrun | crash | applyPanic => cases hr
  | apply _ _ _ ih =>
    have := ih hr
    simp only [Decision.count] at this
    split at this <;> exact this
  | already _ _ ih =>
    have := ih hr
    simp only [Decision.count] at this
    split at this <;> simp only at this <;> omega
  | failed _ _ ih =>
    have := ih hr
    simp only [Decision.count] at this
    omega

/-- Exactly when a displaced file is patched at the displacement, if the first clump fits nowhere else: the displaced place has to be
before the limit of the search, and in debug builds the computation of that limit must not underflow.  Otherwise the first clump
is not even counted as applied. -/
theorem C38_exact (p : Profile) (c : DiffClump T) (cs : List (DiffClump T)) (l : List T) (d : Int)
    (hw : ∀ x ∈ c :: cs, x.WellFormed) (hsz : l.length + weight (c :: cs) < sizeLimit) (hd : d ≠ 0)
    (hs : StandInOrder l d 0 (c :: cs))
    (hother : ∀ d' : Int, d' ≠ d → Fits c.before.items c.contextLengths l (c.before.start + d') none) :
    ((applyInto p (c :: cs) l false).run =
      (.ok { fuzzy := 1, clean := cs.length }, bytesOf (patchedFrom l d 0 (c :: cs))) ↔
      (0 < d → c.before.start + d < searchLimit l c.contextLengths c.before (cs.head?.map DiffClump.before) 0) ∧
      ¬ (p = .debug ∧ Underflow l c.contextLengths c.before (cs.head?.map DiffClump.before) 0)) ∧
    (∀ st out, (applyInto p (c :: cs) l false).run = (.ok st, out) → st.alreadyApplied = 0 → st.alreadyAppliedFuzzy = 0 → st.failed = 0 →
      st = { fuzzy := 1, clean := cs.length } ∧ out = bytesOf (patchedFrom l d 0 (c :: cs))) := by
  have hto : (0 < d → c.before.start + d < searchLimit l c.contextLengths c.before (cs.head?.map DiffClump.before) 0) ∧
      ¬ (p = .debug ∧ Underflow l c.contextLengths c.before (cs.head?.map DiffClump.before) 0) →
      (applyInto p (c :: cs) l false).run = (.ok { fuzzy := 1, clean := cs.length }, bytesOf (patchedFrom l d 0 (c :: cs))) := by
    rintro ⟨h1, h2⟩
    exact C38_partial p c cs l d hw hsz hd hs h1 (fun d' h => hother d' (by omega))
      (fun h => by have := hother (-d) (by omega); rwa [← Int.sub_eq_add_neg] at this) h2
  have hfrom : ∀ st out, (applyInto p (c :: cs) l false).run = (.ok st, out) → st.alreadyApplied = 0 → st.alreadyAppliedFuzzy = 0 →
      st.failed = 0 → (0 < d → c.before.start + d < searchLimit l c.contextLengths c.before (cs.head?.map DiffClump.before) 0) ∧
      ¬ (p = .debug ∧ Underflow l c.contextLengths c.before (cs.head?.map DiffClump.before) 0) := by
    intro st out hrun e1 e2 e3
    have hp := (C57_refines p l _ hw hsz _ _).1 hrun
    cases hp with
    | apply hdec hwr hrest =>
      rename_i d' w ls out
      rcases hdec with ⟨rfl, h⟩ | ⟨-, h1, h2, h3, -⟩
      · have := fits_unique (hother 0 (Ne.symm hd)) h
        cases this
      · rw [Int.add_zero] at h2 h3
        have : d' = d := Decidable.byContradiction fun hne => by
          have := fits_unique (hother d' hne) h3
          cases this
        subst this
        refine ⟨fun hpos => ?_, h1⟩
        rcases h2 with h2 | h2
        · omega
        · exact h2.2
    | already _ h =>
      have := h.countsGrow rfl
      simp only [Decision.count] at this
      split at this <;> simp only at this <;> omega
    | failed _ h =>
      have := h.countsGrow rfl
      simp only [Decision.count] at this
      omega
  refine ⟨⟨fun h => hfrom _ _ h rfl rfl rfl, hto⟩, ?_⟩
  intro st out hrun e1 e2 e3
  have := hto (hfrom _ _ hrun e1 e2 e3)
  rw [hrun] at this
  injection this with h1 h2
  injection h1 with h1
  exact ⟨h1, h2⟩


/-- The hypotheses met: displaced by 4 lines the place is before the limit, which is 7, so the patch is applied there. -/
example : (applyInto .debug [movedClump1, movedClump2] movedText false).run =
    (.ok { fuzzy := 1, clean := 1 }, bytesOf (patchedFrom movedText 4 0 [movedClump1, movedClump2])) := by
  refine (C38_exact .debug movedClump1 [movedClump2] movedText 4 ?_ (by decide) (by decide) ?_ fun d' h => ?_).1.2 ⟨fun _ => by decide, ?_⟩
  · intro x hx
    simp only [List.mem_cons, List.not_mem_nil, or_false] at hx
    rcases hx with rfl | rfl <;> exact ⟨by decide, by decide, by decide, by decide⟩
  · refine ⟨by decide, ?_, by decide, ?_, by show _ ≤ List.length _; decide⟩
    · exact (standsB_iff _ _ 6).1 (by decide +kernel)
    · exact (standsB_iff _ _ 10).1 (by decide +kernel)
  · exact movedText_only _ (by show (2 : Int) + d' ≠ 6; omega)
  · rintro ⟨-, h⟩
    exact absurd h.2 (by decide)

end

end PwDiff
