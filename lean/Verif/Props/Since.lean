import Verif.Props.Between
import Verif.Props.Foreign

/-! # C138: applying a patch again to a file that was changed since -/

namespace PwDiff

section

variable {T : Type}

/-- The computation of the limit of the search for the old lines does not underflow. -/
def RoomAbove (l : List T) : Nat → Int → List (List T × DiffClump T) → Prop
  | _, _, [] => True
  | pos, offset, (gap, c) :: parts =>
    ¬ Underflow l c.contextLengths c.before (parts.head?.map fun x => x.2.before) offset ∧
      RoomAbove l (pos + gap.length + c.after.items.length) ((pos + gap.length : Nat) - c.after.start) parts

theorem patching_again [Item T] (p : Profile) (l : List T) (parts : List (List T × DiffClump T)) (last front : List T) (pos : Nat)
    (offset : Int) (st : Statistics) (hl : l = front ++ woven DiffClump.after parts last) (hpos : front.length = pos)
    (hno : ∀ x ∈ parts, NowhereFits l x.2.contextLengths x.2.before)
    (hu : OnlyThere DiffClump.after l pos parts) (ho : Disjoint DiffClump.after (parts.map (·.2)))
    (h0 : ∀ x ∈ parts, 0 ≤ x.2.after.start + offset) (hroom : p = .debug → RoomAbove l pos offset parts)
    (hr : WithinSearch DiffClump.after l pos offset parts) :
    Patching p l pos offset st (parts.map (·.2)) (bytesOf (woven DiffClump.after parts last))
      (.ok { st with
        alreadyAppliedFuzzy := st.alreadyAppliedFuzzy + shifts DiffClump.after pos offset parts
        alreadyApplied := st.alreadyApplied + (parts.length - shifts DiffClump.after pos offset parts) }) := by
  induction parts generalizing front pos offset st with
  | nil =>
    have := Patching.finish (p := p) (l := l) (k := pos) (offset := offset) (st := st) (by rw [hl]; simp; omega)
    rw [cut_length_eq] at this
    have e : l.drop pos = last := by rw [hl, ← hpos, List.drop_left]; rfl
    rw [e] at this
    exact this
  | cons x parts ih =>
    obtain ⟨gap, c⟩ := x
    obtain ⟨hu1, hu2⟩ := hu
    obtain ⟨hr1, hr2⟩ := hr
    obtain ⟨ho1, ho2⟩ := List.pairwise_cons.1 ho
    simp only at ho1
    have hc0 := h0 _ List.mem_cons_self
    have hn := hno _ List.mem_cons_self
    simp only at hc0 hn
    have hst : StandsAt c.after.items l ((pos + gap.length : Nat) : Int) := by
      refine ⟨front ++ gap, woven DiffClump.after parts last, ?_, ?_⟩
      · rw [hl]; simp [woven]
      · rw [List.length_append, hpos]
    have hlen : c.after.items.length ≤ l.length := by
      rw [hl]; simp [woven]; omega
    obtain ⟨d, hd⟩ : ∃ d : Int, ((pos + gap.length : Nat) : Int) = c.after.start + offset + d :=
      ⟨(pos + gap.length : Nat) - (c.after.start + offset), by omega⟩
    have hdec : Decides p l pos offset c (parts.map (·.2)).head? (.already d .cleanly) := by
      refine ⟨hn _, ?_, fun d' _ => hn _, ?_⟩
      · rintro ⟨hp, h⟩
        rw [head_map] at h
        exact (hroom hp).1 h
      · by_cases hd0 : d = 0
        · subst hd0
          refine .inl ⟨rfl, ?_⟩
          show StandsAt _ _ _
          rwa [hd, Int.add_zero] at hst
        · refine .inr ⟨hu1 _ (by omega), ?_, ?_, ?_, ?_, ?_⟩
          · rintro ⟨-, h⟩
            refine not_underflow DiffClump.after hc0 hlen ?_ h
            intro n hn
            exact ho1 n (List.mem_of_mem_head? hn)
          · by_cases h : 0 < d
            · right
              rw [head_map]
              exact ⟨h, by rw [← hd]; exact hr1 (by omega)⟩
            · left; omega
          · show StandsAt _ _ _
            rwa [← hd]
          · intro d' _ hlt
            exact hu1 _ (by omega)
          · intro hp _
            exact hu1 _ (by omega)
    have hplace : placeOf c.after (offset + d) .cleanly = pos + gap.length := by
      simp only [placeOf, WillApply.redn]
      omega
    have hcov : coveredBy c.after .cleanly = c.after.items.length := rfl
    have hoff : offset + d = ((pos + gap.length : Nat) : Int) - c.after.start := by omega
    have i := ih (front ++ gap ++ c.after.items) (pos + gap.length + c.after.items.length) (offset + d)
      (Decision.count st (.already d .cleanly)) (by rw [hl]; simp [woven]) (by simp only [List.length_append]; omega)
      (fun x hx => hno x (List.mem_cons_of_mem _ hx)) hu2 ho2
      (by
        intro y hy
        have := ho1 y.2 (List.mem_map_of_mem hy)
        omega)
      (fun hp => by rw [hoff]; exact (hroom hp).2) (by rw [hoff]; exact hr2)
    have := Patching.already (st := st) hdec (by
      rw [hplace, hcov, Nat.max_eq_right (by omega)]
      exact i)
    rw [hplace, hcov, ← bytesOf_append] at this
    have ecut : cut l pos (pos + gap.length + c.after.items.length) = gap ++ c.after.items := by
      rw [hl]
      simp only [woven, cut, ← hpos, Nat.add_assoc, Nat.add_sub_cancel_left, List.drop_left]
      rw [List.take_left' (by simp)]
    rw [ecut] at this
    have hle := shifts_le DiffClump.after (pos + gap.length + c.after.items.length) (offset + d) parts
    simp only [List.map_cons, woven, shifts, List.length_cons]
    rw [← hoff]
    by_cases hd0 : d = 0
    · subst hd0
      rw [if_pos (by omega)]
      simp only [Decision.count, and_self, if_true] at this
      rw [show st.alreadyApplied + (parts.length + 1 - (0 + shifts DiffClump.after (pos + gap.length + c.after.items.length) (offset + 0) parts)) =
        st.alreadyApplied + 1 + (parts.length - shifts DiffClump.after (pos + gap.length + c.after.items.length) (offset + 0) parts) by omega,
        Nat.zero_add]
      exact this
    · rw [if_neg (by omega)]
      simp only [Decision.count, hd0, false_and, if_false] at this
      rw [show parts.length + 1 - (1 + shifts DiffClump.after (pos + gap.length + c.after.items.length) (offset + d) parts) =
        parts.length - shifts DiffClump.after (pos + gap.length + c.after.items.length) (offset + d) parts by omega, ← Nat.add_assoc]
      exact this

theorem Patching.failedGrow [Item T] {p : Profile} {l : List T} {k : Nat} {offset : Int} {st st' : Statistics} {cs : List (DiffClump T)}
    {out : List UInt8} {r : Outcome Statistics} (h : Patching p l k offset st cs out r) (hr : r = .ok st') : st.failed ≤ st'.failed := by
  induction h with
  | finish => cases hr; exact Nat.le_refl _
  | overrun | crash | applyPanic => cases hr
  | apply _ _ _ ih =>
    have := ih hr
    simp only [Decision.count] at this
    split at this <;> exact this
  | already _ _ ih =>
    have := ih hr
    simp only [Decision.count] at this
    split at this <;> exact this
  | failed _ _ ih =>
    have := ih hr
    simp only [Decision.count] at this
    omega

theorem withinSearch_again [Item T] {p : Profile} {l : List T} {parts : List (List T × DiffClump T)} {last front : List T} {pos : Nat}
    {offset : Int} {st st' : Statistics} {out : List UInt8} (hl : l = front ++ woven DiffClump.after parts last)
    (hpos : front.length = pos) (hno : ∀ x ∈ parts, NowhereFits l x.2.contextLengths x.2.before)
    (hu : OnlyThere DiffClump.after l pos parts)
    (h : Patching p l pos offset st (parts.map (·.2)) out (.ok st')) (he : st'.failed ≤ st.failed) :
    WithinSearch DiffClump.after l pos offset parts ∧ (p = .debug → RoomAbove l pos offset parts) := by
  induction parts generalizing front pos offset st out with
  | nil => exact ⟨trivial, fun _ => trivial⟩
  | cons x parts ih =>
    obtain ⟨gap, c⟩ := x
    obtain ⟨hu1, hu2⟩ := hu
    have hn := hno _ List.mem_cons_self
    simp only at hn
    have hst : StandsAt c.after.items l ((pos + gap.length : Nat) : Int) := by
      refine ⟨front ++ gap, woven DiffClump.after parts last, ?_, ?_⟩
      · rw [hl]; simp [woven]
      · rw [List.length_append, hpos]
    rw [List.map_cons] at h
    cases h with
    | apply hdec hwr hrest =>
      rename_i d w ls out
      have hfit : Fits c.before.items c.contextLengths l (c.before.start + offset + d) (some w) := by
        rcases hdec with ⟨rfl, h⟩ | ⟨-, -, -, h, -⟩
        · simpa [FitsHere] using h
        · exact h
      cases fits_unique (hn _) hfit
    | already hdec hrest =>
      rename_i d w out
      obtain ⟨-, hnu, -, hdec⟩ := hdec
      have hfit : Fits c.after.items c.contextLengths l (c.after.start + offset + d) (some w) := by
        rcases hdec with ⟨rfl, h⟩ | ⟨-, -, -, h, -⟩
        · simpa [FitsHere] using h
        · exact h
      have hd : c.after.start + offset + d = ((pos + gap.length : Nat) : Int) := Decidable.byContradiction fun hne => by
        have := fits_unique (hu1 _ hne) hfit
        cases this
      rw [hd] at hfit
      have hw : some w = some .cleanly := fits_unique hfit hst
      injection hw with hw
      subst hw
      have hplace : placeOf c.after (offset + d) .cleanly = pos + gap.length := by
        simp only [placeOf, WillApply.redn]
        omega
      have hcov : coveredBy c.after .cleanly = c.after.items.length := rfl
      rw [hplace, hcov, Nat.max_eq_right (by omega), show offset + d = ((pos + gap.length : Nat) : Int) - c.after.start by omega] at hrest
      have i := ih (front := front ++ gap ++ c.after.items) (by rw [hl]; simp [woven])
        (by simp only [List.length_append]; omega) (fun x hx => hno x (List.mem_cons_of_mem _ hx)) hu2 hrest (by
          simp only [Decision.count]
          split <;> simpa using he)
      refine ⟨⟨fun hlt => ?_, i.1⟩, fun hp => ⟨fun h => hnu ⟨hp, ?_⟩, i.2 hp⟩⟩
      · rcases hdec with ⟨rfl, -⟩ | ⟨-, -, h, -⟩
        · omega
        · rw [head_map] at h
          simp only [InBounds] at h
          rw [hd] at h
          rcases h with h | h
          · omega
          · exact h.2
      · rw [head_map]
        exact h
    | failed _ h =>
      have := h.failedGrow rfl
      simp only [Decision.count] at this
      omega

end

section

variable {T : Type} [DecidableEq T] [Item T] [LawfulItem T]

/-- A patch is applied to a file that has the new lines of all clumps, in order, and any lines between them; the new lines of no clump
fit anywhere else, and the old lines fit nowhere. Then every clump is counted as already applied and the file is copied, if and only if
every clump that has moved down stands before the limit of the search (and in debug builds no limit of the search for the old lines
underflows). Otherwise the program panics, or a clump counts as failed. -/
theorem C138_exact (p q : Profile) (before after : List T) (context : Nat) (hctx : context ≤ 255)
    (parts : List (List T × DiffClump T)) (last : List T)
    (h : diffClumps p before after context = .ok (parts.map (·.2)))
    (hsz : before.length + after.length + (woven DiffClump.after parts last).length ≤ maxLines)
    (hno : ∀ x ∈ parts, NowhereFits (woven DiffClump.after parts last) x.2.contextLengths x.2.before)
    (hu : OnlyThere DiffClump.after (woven DiffClump.after parts last) 0 parts) :
    ((applyInto q (parts.map (·.2)) (woven DiffClump.after parts last) false).run =
      (.ok { alreadyAppliedFuzzy := shifts DiffClump.after 0 0 parts, alreadyApplied := parts.length - shifts DiffClump.after 0 0 parts },
        bytesOf (woven DiffClump.after parts last)) ↔
      WithinSearch DiffClump.after (woven DiffClump.after parts last) 0 0 parts ∧
        (q = .debug → RoomAbove (woven DiffClump.after parts last) 0 0 parts)) ∧
    ∀ st out, (applyInto q (parts.map (·.2)) (woven DiffClump.after parts last) false).run = (.ok st, out) → st.failed = 0 →
      out = bytesOf (woven DiffClump.after parts last) := by
  have hd := (diffClumps_full hctx h).1
  have hw := hd.wellFormed (by omega) (by omega)
  have hwt := hd.weight
  obtain ⟨skip, hs⟩ := hd.swap.diffed
  have hdis : Disjoint DiffClump.after (parts.map (·.2)) := by
    have := hs.standInOrder.disjoint.1
    exact List.pairwise_map.1 this
  simp only [maxLines] at hsz
  have href := C57_refines q (woven DiffClump.after parts last) _ hw (by simp only [sizeLimit]; omega)
  have hto : WithinSearch DiffClump.after (woven DiffClump.after parts last) 0 0 parts ∧
        (q = .debug → RoomAbove (woven DiffClump.after parts last) 0 0 parts) →
      (applyInto q (parts.map (·.2)) (woven DiffClump.after parts last) false).run =
      (.ok { alreadyAppliedFuzzy := shifts DiffClump.after 0 0 parts, alreadyApplied := parts.length - shifts DiffClump.after 0 0 parts },
        bytesOf (woven DiffClump.after parts last)) := by
    intro hr
    rw [href]
    have := patching_again q _ parts last [] 0 0 {} rfl rfl hno hu hdis (fun x _ => by omega) hr.2 hr.1
    simpa using this
  refine ⟨⟨fun hrun => ?_, hto⟩, ?_⟩
  · exact withinSearch_again (front := []) rfl rfl hno hu ((href _ _).1 hrun) (Nat.le_refl _)
  · intro st out hrun e
    have := hto (withinSearch_again (front := []) rfl rfl hno hu ((href _ _).1 hrun) (by rw [e]; exact Nat.zero_le _))
    rw [hrun] at this
    exact (Prod.mk.injEq .. ▸ this).2

omit [DecidableEq T] [Item T] [LawfulItem T] in
/-- A clump that removes a line which is not in the file fits nowhere. -/
theorem nowhere_of_missing {l : List T} {ctx : Nat × Nat} {side : Snippet T} {x : T} (hx : x ∈ trim ctx side.items) (hm : x ∉ l) :
    NowhereFits l ctx side := by
  intro pos
  obtain ⟨i, hi⟩ := List.mem_iff_getElem?.1 hx
  obtain ⟨hi1, hi2⟩ := trim_get.1 hi
  have key : ∀ r : Nat × Nat, r.1 ≤ ctx.1 → r.2 ≤ ctx.2 → ¬ StandsAt (trim r side.items) l (pos + r.1) := by
    intro r hr1 hr2 h
    obtain ⟨k', -, hkx'⟩ := h.get (i := ctx.1 - r.1 + i) (x := x) (trim_get.2 ⟨by omega, by
      rw [show r.1 + (ctx.1 - r.1 + i) = ctx.1 + i by omega, hi2]⟩)
    exact hm (List.mem_of_getElem? hkx')
  refine ⟨fun h => key (0, 0) (Nat.zero_le _) (Nat.zero_le _) ?_, fun k _ _ => key _ (Nat.min_le_right _ _) (Nat.min_le_right _ _)⟩
  have e : trim (0, 0) side.items = side.items := by simp [trim]
  rw [e]
  simpa using h

/-- Every clump adds a line that is in the file only once, and removes a line that is not in it; lines may have been deleted and
replaced since between the clumps: the patch is recognised as applied, and the file is copied. (Release builds.) -/
theorem C138_once (p : Profile) (before after : List T) (context : Nat) (hctx : context ≤ 255)
    (parts : List (List T × DiffClump T)) (last : List T)
    (h : diffClumps p before after context = .ok (parts.map (·.2)))
    (hsz : before.length + after.length + (woven DiffClump.after parts last).length ≤ maxLines)
    (hold : ∀ x ∈ parts, ∃ y ∈ trim x.2.contextLengths x.2.before.items, y ∉ woven DiffClump.after parts last)
    (hnew : ∀ x ∈ parts, ChangesUnique (woven DiffClump.after parts last) x.2.swap)
    (hr : WithinSearch DiffClump.after (woven DiffClump.after parts last) 0 0 parts) :
    (applyInto .release (parts.map (·.2)) (woven DiffClump.after parts last) false).run =
      (.ok { alreadyAppliedFuzzy := shifts DiffClump.after 0 0 parts, alreadyApplied := parts.length - shifts DiffClump.after 0 0 parts },
        bytesOf (woven DiffClump.after parts last)) := by
  refine (C138_exact p .release before after context hctx parts last h hsz (fun x hx => ?_) ?_).1.2 ⟨hr, fun h => nomatch h⟩
  · obtain ⟨y, hy, hm⟩ := hold x hx
    exact nowhere_of_missing hy hm
  · obtain ⟨e1, e2, e3, e4, e5, e6⟩ := swap_parts (woven DiffClump.after parts last) parts last 0 0
    refine e5.1 (onlyThere_of_once (last := last) (front := []) e2.symm rfl ?_)
    intro x hx
    obtain ⟨y, hy, rfl⟩ := List.mem_map.1 hx
    exact hnew y hy

end

theorem wovenParts_after : OnlyThere DiffClump.after (woven DiffClump.after wovenParts (letters ['j', 'k'])) 0 wovenParts :=
  (swap_parts _ wovenParts (letters ['j', 'k']) 0 0).2.2.2.2.1.1 (onlyThere_of_once (last := letters ['j', 'k']) (front := [])
    (swap_parts [] wovenParts (letters ['j', 'k']) 0 0).2.1.symm rfl (by decide +kernel))

theorem wovenParts_nowhere : ∀ x ∈ wovenParts,
    NowhereFits (woven DiffClump.after wovenParts (letters ['j', 'k'])) x.2.contextLengths x.2.before := by
  intro x hx
  have : ∀ x ∈ wovenParts, nowhereB (woven DiffClump.after wovenParts (letters ['j', 'k'])) x.2.contextLengths x.2.before = true := by
    decide +kernel
  exact nowhere_of_check (this x hx)

theorem wovenParts_room : RoomAbove (woven DiffClump.after wovenParts (letters ['j', 'k'])) 0 0 wovenParts :=
  ⟨by unfold Underflow; decide +kernel, by unfold Underflow; decide +kernel, trivial⟩

theorem wovenParts_withinAfter : WithinSearch DiffClump.after (woven DiffClump.after wovenParts (letters ['j', 'k'])) 0 0 wovenParts :=
  ⟨by decide +kernel, by decide +kernel, trivial⟩

/-- The situation, and what is counted. -/
example : (applyInto .debug (wovenParts.map (·.2)) (woven DiffClump.after wovenParts (letters ['j', 'k'])) false).run =
    (.ok { alreadyAppliedFuzzy := 2 }, bytesOf (woven DiffClump.after wovenParts (letters ['j', 'k']))) :=
  (C138_exact .debug .debug _ _ 1 (by decide) wovenParts (letters ['j', 'k']) woven_diff (by decide +kernel) wovenParts_nowhere
    wovenParts_after).1.2 ⟨wovenParts_withinAfter, fun _ => wovenParts_room⟩

example := C138_once .debug _ _ 1 (by decide) wovenParts (letters ['j', 'k']) woven_diff (by decide +kernel) (by decide +kernel)
  (by decide +kernel) wovenParts_withinAfter

/-- What one may expect: a patch whose new lines are there, and whose old lines are not, changes nothing. -/
def C138_statement : Prop :=
  ∀ (p q : Profile) (before after : List Str) (context : Nat) (parts : List (List Str × DiffClump Str)) (last : List Str),
    context ≤ 255 → diffClumps p before after context = .ok (parts.map (·.2)) →
    (∀ x ∈ parts, ∃ y ∈ trim x.2.contextLengths x.2.before.items, y ∉ woven DiffClump.after parts last) →
    (∀ x ∈ parts, ChangesUnique (woven DiffClump.after parts last) x.2.swap) →
    (applyInto q (parts.map (·.2)) (woven DiffClump.after parts last) false).run.2 = bytesOf (woven DiffClump.after parts last)

/-- That is not so: after six lines were put in front the new lines are not found, and a conflict is written. -/
theorem C138_refuted : ¬ C138_statement := by
  intro h
  have hx := h .debug .release _ _ 1 
    [(letters ['a', 'N', 'N', 'N', 'N', 'N', 'N', 'b'], ⟨(1, 1), ⟨2, letters ['c', 'd', 'e']⟩, ⟨2, letters ['c', 'X', 'Y', 'e']⟩⟩),
    ([], ⟨(1, 1), ⟨6, letters ['g', 'h', 'i']⟩, ⟨7, letters ['g', 'Z', 'W', 'i']⟩⟩)] (letters ['j', 'k']) (by decide) woven_diff
    (by decide +kernel) (by decide +kernel)
  revert hx
  decide +kernel

/-- In the program: the exit status is 0 and nothing is changed. -/
theorem C138_program (p : Profile) (temp patch : Path) (w : World) (hf : w.faults = []) (d : TextChangeDiff)
    (hp : HoldsDiff w.fs patch (.textChange d)) (hfree : w.fs.node (w.fs.entry temp) = none)
    (before after : List Str) (context : Nat) (hctx : context ≤ 255) (parts : List (List Str × DiffClump Str)) (last : List Str)
    (hd : d.clumps = parts.map (·.2)) (h : diffClumps p before after context = .ok d.clumps)
    (s : Str) (hfile : w.fs.node (w.fs.entry d.beforePath) = some (.file s.bytes))
    (hs : splitInclusive s = woven DiffClump.after parts last)
    (hsz : before.length + after.length + (splitInclusive s).length ≤ maxLines)
    (hold : ∀ x ∈ parts, ∃ y ∈ trim x.2.contextLengths x.2.before.items, y ∉ splitInclusive s)
    (hnew : ∀ x ∈ parts, ChangesUnique (splitInclusive s) x.2.swap)
    (hr : WithinSearch DiffClump.after (splitInclusive s) 0 0 parts) :
    (pwPatch .release temp patch false).run w = (.exited 0, w) := by
  have := C46_normal .release temp patch d.beforePath false w (.textChange d) hp rfl hf hfree (FS.contentAt_of_file hfile) (new := s.bytes)
    ⟨s, { alreadyAppliedFuzzy := shifts DiffClump.after 0 0 parts, alreadyApplied := parts.length - shifts DiffClump.after 0 0 parts }, rfl, by
      rw [← bytesOf_splitInclusive, hs]
      rw [hs] at hsz hold hnew hr
      rw [hd] at h ⊢
      exact C138_once p before after context hctx parts last h hsz hold hnew hr⟩
  rw [this, FS.set_same w.fs hfile]

example : ∃ w : World, (pwPatch .release [84] [67] false).run w = (.exited 0, w) := by
  obtain ⟨e1, e2, e3, e3', e4, e5, e6, e6', e7, e8⟩ := FS.ofFiles_two
    (bytesOf (letters ['a', 'N', 'b', 'c', 'X', 'Y', 'e', 'g', 'Z', 'W', 'i', 'j', 'k']))
    (Diff.textChange ⟨[65], [66], wovenParts.map (·.2)⟩).fileContent
  generalize FS.ofFiles [([65], _), ([67], _)] = fs at *
  refine ⟨⟨fs, [], []⟩, C138_program .debug [84] [67] ⟨fs, [], []⟩ rfl ⟨[65], [66], wovenParts.map (·.2)⟩ ?_ (by rw [e3, e6'])
    _ _ 1 (by decide) wovenParts (letters ['j', 'k']) rfl woven_diff
    (letters ['a', 'N', 'b', 'c', 'X', 'Y', 'e', 'g', 'Z', 'W', 'i', 'j', 'k']).flatten ?_ (by decide +kernel) (by decide +kernel)
    (by decide +kernel) (by decide +kernel) ?_⟩
  · refine holdsDiff_of_file ?_ ?_ e8
    · intro c hc
      simp only [wovenParts, List.map_cons, List.map_nil, List.mem_cons, List.not_mem_nil, or_false] at hc
      rcases hc with rfl | rfl <;> simp [DiffClump.InRange, wordSize]
    · intro path h
      simp only [Diff.paths, List.mem_cons, List.not_mem_nil, or_false] at h
      rcases h with rfl | rfl
      · exact ⟨['A'], by decide⟩
      · exact ⟨['B'], by decide⟩
  · show fs.node (fs.entry [65]) = _
    rw [e1, e4]
    exact congrArg (fun x => some (Node.file x)) (by decide +kernel)
  · have e : splitInclusive (letters ['a', 'N', 'b', 'c', 'X', 'Y', 'e', 'g', 'Z', 'W', 'i', 'j', 'k']).flatten =
        woven DiffClump.after wovenParts (letters ['j', 'k']) := by decide +kernel
    rw [e]
    exact wovenParts_withinAfter

end PwDiff
