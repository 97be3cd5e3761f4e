import Verif.Props.Partly
import Verif.Props.Rerun

/-! # C144: a patch taken back from a file in which only some of its clumps were applied -/

namespace PwDiff

section

variable {T : Type}

/-- The file with no clump applied. -/
def unpatched : List (Stretch T) → List T → List T
  | [], last => last
  | x :: parts, last => x.gap ++ x.clump.before.items ++ unpatched parts last

/-- No limit of a search that is made underflows, when the patch is taken back. -/
def NoUnderflowBack (l : List T) : Nat → Int → List (Stretch T) → Prop
  | _, _, [] => True
  | pos, offset, x :: parts =>
    (x.done = false → ¬ Underflow l x.clump.contextLengths x.clump.after (parts.head?.map fun y => y.clump.after) offset) ∧
    (((pos + x.gap.length : Nat) : Int) ≠ (sideOf x.done x.clump).start + offset →
      ¬ Underflow l x.clump.contextLengths (sideOf x.done x.clump) (parts.head?.map fun y => sideOf x.done y.clump) offset) ∧
    NoUnderflowBack l (pos + x.gap.length + (sideOf x.done x.clump).items.length)
      ((pos + x.gap.length : Nat) - (sideOf x.done x.clump).start) parts

/-- The same part of the file, seen from the other direction. -/
def Stretch.swap (x : Stretch T) : Stretch T := ⟨x.gap, x.clump.swap, !x.done⟩

theorem sideOf_swap (b : Bool) (c : DiffClump T) : sideOf (!b) c.swap = sideOf b c := by cases b <;> rfl

theorem swap_stretches (l : List T) (parts : List (Stretch T)) (last : List T) (pos : Nat) (offset : Int) :
    let swapped := parts.map Stretch.swap
    swapped.map (·.clump) = (parts.map (·.clump)).map DiffClump.swap ∧
    partly swapped last = partly parts last ∧ wholly swapped last = unpatched parts last ∧
    (∀ done moved, howMany done moved pos offset swapped = howMany (!done) moved pos offset parts) ∧
    (FitsOnce l pos swapped ↔ FitsOnce l pos parts) ∧ (InReach l pos offset swapped ↔ InReach l pos offset parts) ∧
    (NoUnderflow l pos offset swapped ↔ NoUnderflowBack l pos offset parts) := by
  induction parts generalizing pos offset with
  | nil => simp [partly, wholly, unpatched, howMany, FitsOnce, InReach, NoUnderflow, NoUnderflowBack]
  | cons x parts ih =>
    obtain ⟨i1, i2, i3, i4, i5, i6, i7⟩ := ih (pos + x.gap.length + (sideOf x.done x.clump).items.length)
      (((pos + x.gap.length : Nat) : Int) - (sideOf x.done x.clump).start)
    have hh : (parts.map Stretch.swap).head?.map (fun y => sideOf (!x.done) y.clump) =
        parts.head?.map fun y => sideOf x.done y.clump := by
      cases parts with
      | nil => rfl
      | cons y parts => simp [Stretch.swap, sideOf_swap]
    have hb : (parts.map Stretch.swap).head?.map (fun y => y.clump.before) = parts.head?.map fun y => y.clump.after := by
      cases parts <;> rfl
    have e1 : x.swap.gap = x.gap := rfl
    have e2 : sideOf x.swap.done x.swap.clump = sideOf x.done x.clump := sideOf_swap _ _
    have e3 : x.swap.clump.contextLengths = x.clump.contextLengths := rfl
    have e4 : x.swap.clump.after = x.clump.before := rfl
    have e5 : x.swap.clump.before = x.clump.after := rfl
    have e6 : x.swap.done = !x.done := rfl
    have hh' : (parts.map Stretch.swap).head?.map (fun y => sideOf x.swap.done y.clump) =
        parts.head?.map fun y => sideOf x.done y.clump := hh
    refine ⟨?_, ?_, ?_, ?_, ?_, ?_, ?_⟩
    · simp only [List.map_cons]
      exact congrArg (_ :: ·) i1
    · simp only [List.map_cons, partly, e1, e2, i2]
    · simp only [List.map_cons, wholly, unpatched, e1, e4, i3]
    · intro done moved
      simp only [List.map_cons, howMany, e1, e2, i4]
      simp only [e6]
      have : (!x.done) = done ↔ x.done = !done := by cases x.done <;> cases done <;> simp
      simp only [this]
    · simp only [List.map_cons, FitsOnce, e1, e2, e3, i5]
    · simp only [List.map_cons, InReach, e1, e2, e3, hh', i6]
    · simp only [List.map_cons, NoUnderflow, NoUnderflowBack, e1, e2, e3, e5, hh', hb, i7]
      simp only [e6]
      have : (!x.done) = true ↔ x.done = false := by cases x.done <;> simp
      simp only [this]

end

section

variable {T : Type} [DecidableEq T] [Item T] [LawfulItem T]

/-- A patch is taken back from a file that has, in order, the new lines of some of its clumps (those that are `done`) and the old lines of
the others, and any lines between them. The lines that are there fit nowhere else, and the other side of each clump fits nowhere. Then
the clumps that are `done` are taken back and the others are counted as taken back already, if and only if every clump that has moved
down stands before the limit of the search (and, in debug builds, no limit underflows). The result has the old lines of all clumps and is
otherwise the same file. -/
theorem C144_exact (p q : Profile) (before after : List T) (context : Nat) (hctx : context ≤ 255) (parts : List (Stretch T)) (last : List T)
    (h : diffClumps p before after context = .ok (parts.map (·.clump)))
    (hsz : before.length + after.length + (partly parts last).length ≤ maxLines)
    (hno : ∀ x ∈ parts, NowhereFits (partly parts last) x.clump.contextLengths (sideOf (!x.done) x.clump))
    (hu : FitsOnce (partly parts last) 0 parts) :
    ((applyInto q (parts.map (·.clump)) (partly parts last) true).run =
      (.ok { clean := howMany true false 0 0 parts, fuzzy := howMany true true 0 0 parts,
             alreadyApplied := howMany false false 0 0 parts, alreadyAppliedFuzzy := howMany false true 0 0 parts },
        bytesOf (unpatched parts last)) ↔
      InReach (partly parts last) 0 0 parts ∧ (q = .debug → NoUnderflowBack (partly parts last) 0 0 parts)) ∧
    ∀ st out, (applyInto q (parts.map (·.clump)) (partly parts last) true).run = (.ok st, out) → st.failed = 0 →
      out = bytesOf (unpatched parts last) := by
  obtain ⟨e1, e2, e3, e4, e5, e6, e7⟩ := swap_stretches (partly parts last) parts last 0 0
  have hd := (diffClumps_full hctx h).1.swap
  rw [← e1] at hd
  have hw := hd.wellFormed (by omega) (by omega)
  have hwt := hd.weight
  simp only [maxLines] at hsz
  have href := C57_refines q (partly parts last) _ hw (by simp only [sizeLimit]; omega)
  have hno' : ∀ x ∈ parts.map Stretch.swap, NowhereFits (partly parts last) x.clump.contextLengths (sideOf (!x.done) x.clump) := by
    intro x hx
    obtain ⟨y, hy, rfl⟩ := List.mem_map.1 hx
    have := hno y hy
    rw [← sideOf_swap] at this
    exact this
  rw [e1] at href
  simp only [Swap.applyAll, Bool.not_false] at href
  have hto : InReach (partly parts last) 0 0 parts ∧ (q = .debug → NoUnderflowBack (partly parts last) 0 0 parts) →
      (applyInto q (parts.map (·.clump)) (partly parts last) true).run =
      (.ok { clean := howMany true false 0 0 parts, fuzzy := howMany true true 0 0 parts,
             alreadyApplied := howMany false false 0 0 parts, alreadyAppliedFuzzy := howMany false true 0 0 parts },
        bytesOf (unpatched parts last)) := by
    rintro ⟨hr, hroom⟩
    rw [href]
    have := patching_partly q _ (parts.map Stretch.swap) last [] 0 0 {} e2.symm rfl
      (fun x hx hxd => by have := hno' x hx; rwa [hxd] at this) (e5.2 hu) (fun hq => e7.2 (hroom hq)) (e6.2 hr)
    simpa [e1, e3, e4] using this
  have hfrom : ∀ st out, (applyInto q (parts.map (·.clump)) (partly parts last) true).run = (.ok st, out) → st.failed = 0 →
      InReach (partly parts last) 0 0 parts ∧ (q = .debug → NoUnderflowBack (partly parts last) 0 0 parts) := by
    intro st out hrun e
    have hrun := (href _ _).1 hrun
    rw [← e1] at hrun
    have := inReach_of (front := []) e2.symm rfl hno' (e5.2 hu) hrun (by rw [e]; exact Nat.zero_le _)
    exact ⟨e6.1 this.1, fun hq => e7.1 (this.2 hq)⟩
  refine ⟨⟨fun hrun => hfrom _ _ hrun rfl, hto⟩, ?_⟩
  intro st out hrun e
  have := hto (hfrom st out hrun e)
  rw [hrun] at this
  exact (Prod.mk.injEq .. ▸ this).2

/-- It is enough that the lines that are there are recognised by one that is in the file only once, and the others by one that is not in
it. The condition is the same for both directions: the rest of the patch can be applied, and the part that was applied can be taken back,
and neither fails. -/
theorem C144_both (p : Profile) (before after : List T) (context : Nat) (hctx : context ≤ 255) (parts : List (Stretch T)) (last : List T)
    (h : diffClumps p before after context = .ok (parts.map (·.clump)))
    (hsz : before.length + after.length + (partly parts last).length ≤ maxLines)
    (ht : ∀ x ∈ parts, TellTale (partly parts last) x) (hr : InReach (partly parts last) 0 0 parts) :
    ∃ st st' : Statistics,
      (applyInto .release (parts.map (·.clump)) (partly parts last) false).run = (.ok st, bytesOf (wholly parts last)) ∧
      (applyInto .release (parts.map (·.clump)) (partly parts last) true).run = (.ok st', bytesOf (unpatched parts last)) ∧
      st.failed = 0 ∧ st.alreadyApplied + st.alreadyAppliedFuzzy = parts.countP (·.done) ∧
      st'.failed = 0 ∧ st'.clean = st.alreadyApplied ∧ st'.fuzzy = st.alreadyAppliedFuzzy ∧
      st'.alreadyApplied = st.clean ∧ st'.alreadyAppliedFuzzy = st.fuzzy := by
  have hno : ∀ x ∈ parts, NowhereFits (partly parts last) x.clump.contextLengths (sideOf (!x.done) x.clump) := by
    intro x hx
    obtain ⟨y, hy, hm⟩ := (ht x hx).2
    exact nowhere_of_missing hy hm
  have hu := fitsOnce_of_once (front := []) (l := partly parts last) (last := last) (pos := 0) rfl rfl fun x hx => (ht x hx).1
  have s1 := howMany_sum true 0 0 parts
  simp only [beq_true] at s1
  exact ⟨_, _, (C139_exact p .release before after context hctx parts last h hsz hno hu).1.2 ⟨hr, nofun⟩,
    (C144_exact p .release before after context hctx parts last h hsz hno hu).1.2 ⟨hr, nofun⟩, rfl, s1, rfl, rfl, rfl, rfl, rfl⟩

end

/-- In the program: the exit status is 0 and the file has the old lines of all clumps. -/
theorem C144_program (p : Profile) (temp patch target : Path) (w : World) (hf : w.faults = []) (d : TextChangeDiff)
    (hp : HoldsDiff w.fs patch (.textChange d)) (htg : d.beforePath = target) (hfree : w.fs.node (w.fs.entry temp) = none)
    (before after : List Str) (context : Nat) (hctx : context ≤ 255) (parts : List (Stretch Str)) (last : List Str)
    (hd : d.clumps = parts.map (·.clump)) (h : diffClumps p before after context = .ok d.clumps)
    (s : Str) (hold : w.fs.contentAt target = some ⟨s.bytes, false⟩) (hs : splitInclusive s = partly parts last)
    (hsz : before.length + after.length + (splitInclusive s).length ≤ maxLines)
    (ht : ∀ x ∈ parts, TellTale (splitInclusive s) x) (hr : InReach (splitInclusive s) 0 0 parts) :
    (pwPatch .release temp patch true).run w = (.exited 0,
      { w with fs := w.fs.set (w.fs.entry target) (some (.file (bytesOf (unpatched parts last)))) }) := by
  subst htg
  rw [hs] at hsz ht hr
  obtain ⟨st, st', -, e, -⟩ := C144_both p before after context hctx parts last (hd ▸ h) hsz ht hr
  exact C46_normal .release temp patch d.beforePath true w (.textChange d) hp rfl hf hfree hold ⟨s, st', rfl, by rw [hs, hd]; exact e⟩

/-- The file of C139 in which the first clump was applied: it is taken back. -/
example : (applyInto .release (wovenParts.map (·.2)) (letters ['a', 'N', 'b', 'c', 'X', 'Y', 'e', 'g', 'h', 'i', 'j', 'k']) true).run =
    (.ok { fuzzy := 1, alreadyApplied := 1 }, bytesOf (letters ['a', 'N', 'b', 'c', 'd', 'e', 'g', 'h', 'i', 'j', 'k'])) :=
  (C144_exact .debug .release _ _ 1 (by decide) firstDone (letters ['j', 'k']) woven_diff (by decide +kernel)
    (fun x hx => by
      have : ∀ x ∈ firstDone, nowhereB (partly firstDone (letters ['j', 'k'])) x.clump.contextLengths (sideOf (!x.done) x.clump) = true := by
        decide +kernel
      exact nowhere_of_check (this x hx))
    (fitsOnce_of_once (last := letters ['j', 'k']) (front := []) rfl rfl (by decide +kernel))).1.2 ⟨firstDone_reach, nofun⟩

example := C144_both .debug _ _ 1 (by decide) secondDone (letters ['j', 'k']) woven_diff (by decide +kernel) (by decide +kernel)
  secondDone_reach

/-- What one may expect: taking a patch back from a file to which some of its clumps, and nothing else, have been applied gives the file
before the patch. -/
def C144_statement : Prop :=
  ∀ (p q : Profile) (before after : List Str) (context : Nat) (parts : List (Stretch Str)) (last : List Str),
    context ≤ 255 → diffClumps p before after context = .ok (parts.map (·.clump)) → unpatched parts last = before →
    (∀ x ∈ parts, TellTale (partly parts last) x) →
    (applyInto q (parts.map (·.clump)) (partly parts last) true).run.2 = bytesOf before

/-- That is not so: the first clump, which removes five lines, was not applied, so the second is not found below the place where the third
is expected. -/
theorem C144_refuted : ¬ C144_statement := by
  intro h
  have hx := h .debug .release
    (letters ['a', 'U', 'V', 'W', 'X', 'Y', 'Z', 'c', 'd', 'E', 'G', 'f', 'g', 'H', 'K', 'i', 'j'])
    (letters ['a', 'b', 'c', 'd', 'e', 'f', 'g', 'h', 'i', 'j']) 1
    [⟨[], ⟨(1, 1), ⟨0, letters ['a', 'U', 'V', 'W', 'X', 'Y', 'Z', 'c']⟩, ⟨0, letters ['a', 'b', 'c']⟩⟩, false⟩,
     ⟨[], ⟨(1, 1), ⟨8, letters ['d', 'E', 'G', 'f']⟩, ⟨3, letters ['d', 'e', 'f']⟩⟩, true⟩,
     ⟨[], ⟨(1, 1), ⟨12, letters ['g', 'H', 'K', 'i']⟩, ⟨6, letters ['g', 'h', 'i']⟩⟩, true⟩] (letters ['j']) (by decide)
    (by decide +kernel) (by decide +kernel) (by decide +kernel)
  revert hx
  decide +kernel

/-- The situation: in `A` only the first clump was applied, `C` holds the patch. -/
example : ∃ w r, (pwPatch .release [84] [67] true).run w = (.exited 0, r) ∧
    w.fs.contentAt [65] = some ⟨bytesOf (letters ['a', 'N', 'b', 'c', 'X', 'Y', 'e', 'g', 'h', 'i', 'j', 'k']), false⟩ ∧
    r.fs.contentAt [65] = some ⟨bytesOf (letters ['a', 'N', 'b', 'c', 'd', 'e', 'g', 'h', 'i', 'j', 'k']), false⟩ := by
  obtain ⟨e1, e2, e3, e3', e4, e5, e6, e6', e7, e8⟩ := FS.ofFiles_two
    (bytesOf (letters ['a', 'N', 'b', 'c', 'X', 'Y', 'e', 'g', 'h', 'i', 'j', 'k']))
    (Diff.textChange ⟨[65], [66], firstDone.map (·.clump)⟩).fileContent
  generalize FS.ofFiles [([65], _), ([67], _)] = fs at *
  have e : splitInclusive (letters ['a', 'N', 'b', 'c', 'X', 'Y', 'e', 'g', 'h', 'i', 'j', 'k']).flatten =
      partly firstDone (letters ['j', 'k']) := by decide +kernel
  have h := C144_program .debug [84] [67] [65] ⟨fs, [], []⟩ rfl ⟨[65], [66], firstDone.map (·.clump)⟩ ?_ rfl ?_
    _ _ 1 (by decide) firstDone (letters ['j', 'k']) rfl woven_diff
    (letters ['a', 'N', 'b', 'c', 'X', 'Y', 'e', 'g', 'h', 'i', 'j', 'k']).flatten ?_ e (by decide +kernel) (by decide +kernel)
    (by rw [e]; exact firstDone_reach)
  · refine ⟨_, _, h, e7, ?_⟩
    exact FS.contentAt_of_file (by simp; rfl)
  · refine holdsDiff_of_file ?_ ?_ e8
    · intro c hc
      simp only [firstDone, List.map_cons, List.map_nil, List.mem_cons, List.not_mem_nil, or_false] at hc
      rcases hc with rfl | rfl <;> simp [DiffClump.InRange, wordSize]
    · intro path h
      simp only [Diff.paths, List.mem_cons, List.not_mem_nil, or_false] at h
      rcases h with rfl | rfl
      · exact ⟨['A'], by decide⟩
      · exact ⟨['B'], by decide⟩
  · show fs.node (fs.entry [84]) = none
    rw [e3, e6']
  · exact e7.trans (by decide +kernel)

end PwDiff
