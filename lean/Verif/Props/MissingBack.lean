import Verif.Props.Missing

/-! # C148: taking back a patch of which some clumps are found and others not -/

namespace PwDiff

section

variable {T : Type}

/-- The file: for a clump with `some gap`, these lines and then its new lines; for one with `none`, nothing. -/
def havingNew : List (Option (List T) × DiffClump T) → List T → List T
  | [], last => last
  | (some gap, c) :: parts, last => gap ++ c.after.items ++ havingNew parts last
  | (none, _) :: parts, last => havingNew parts last

/-- The result: the new lines that are there are replaced by the old ones, and for the others a conflict is written, with the new lines
first, directly after the clump before. -/
def withConflictsBack [Item T] : List (Option (List T) × DiffClump T) → List T → List UInt8
  | [], last => bytesOf last
  | (some gap, c) :: parts, last => bytesOf gap ++ bytesOf c.before.items ++ withConflictsBack parts last
  | (none, c) :: parts, last => conflict c.after.items c.before.items ++ withConflictsBack parts last

/-- The same with the clumps turned round. -/
def turned (parts : List (Option (List T) × DiffClump T)) : List (Option (List T) × DiffClump T) := parts.map fun x => (x.1, x.2.swap)

theorem turned_clumps (parts : List (Option (List T) × DiffClump T)) :
    (turned parts).map (·.2) = (parts.map (·.2)).map DiffClump.swap := by
  simp [turned]

theorem having_turned (parts : List (Option (List T) × DiffClump T)) (last : List T) : having (turned parts) last = havingNew parts last := by
  induction parts with
  | nil => rfl
  | cons x parts ih =>
    obtain ⟨_ | gap, c⟩ := x
    · exact ih
    · exact congrArg (fun l => gap ++ c.after.items ++ l) ih

theorem withConflicts_turned [Item T] (parts : List (Option (List T) × DiffClump T)) (last : List T) :
    withConflicts (turned parts) last = withConflictsBack parts last := by
  induction parts with
  | nil => rfl
  | cons x parts ih =>
    obtain ⟨_ | gap, c⟩ := x
    · exact congrArg (fun l => conflict c.after.items c.before.items ++ l) ih
    · exact congrArg (fun l => bytesOf gap ++ bytesOf c.before.items ++ l) ih

theorem missing_turned (parts : List (Option (List T) × DiffClump T)) : missing (turned parts) = missing parts := by
  induction parts with
  | nil => rfl
  | cons x parts ih =>
    obtain ⟨_ | gap, c⟩ := x
    · exact congrArg (· + 1) ih
    · exact ih

end

section

variable {T : Type} [DecidableEq T] [Item T] [LawfulItem T]

/-- A patch is taken back from a file in which the new lines of some of its clumps are, in order, with any lines between them, and fit
nowhere else, while neither the new nor the old lines of the others fit anywhere. Then the old lines of the former are put back, and for
each of the others a conflict, with the new lines first, is written directly after the lines put back before; all other lines are kept.
This is so if and only if each clump that is there, and further down than expected, stands before the limit of the search (and, in debug
builds, no limit underflows for one that is not there). -/
theorem C148_exact (p q : Profile) (before after : List T) (context : Nat) (hctx : context ≤ 255)
    (parts : List (Option (List T) × DiffClump T)) (last : List T)
    (h : diffClumps p before after context = .ok (parts.map (·.2)))
    (hsz : before.length + after.length + (havingNew parts last).length ≤ maxLines) (hu : FitsIfThere (havingNew parts last) 0 (turned parts)) :
    ((applyInto q (parts.map (·.2)) (havingNew parts last) true).run =
      (.ok { clean := unshifted 0 0 (turned parts), fuzzy := shifted 0 0 (turned parts), failed := missing parts },
        withConflictsBack parts last) ↔
      FoundInTime (havingNew parts last) 0 0 (turned parts) ∧ (q = .debug → MissedSafely (havingNew parts last) 0 0 (turned parts))) ∧
    ∀ st out, (applyInto q (parts.map (·.2)) (havingNew parts last) true).run = (.ok st, out) →
      st.alreadyApplied + st.alreadyAppliedFuzzy + st.failed = missing parts → out = withConflictsBack parts last := by
  have hd := (diffClumps_full hctx h).1.swap
  rw [← turned_clumps] at hd
  have := missing_isDiff q (turned parts) last hd (by rw [having_turned]; omega) (by rw [having_turned]; exact hu)
  rw [turned_clumps, Swap.applyAll, having_turned, withConflicts_turned, missing_turned] at this
  exact this

/-- It is enough that the clumps that are there have added a line that is in the file once, and that of the others a line they added and
one they removed are not in it. -/
theorem C148_once (p : Profile) (before after : List T) (context : Nat) (hctx : context ≤ 255)
    (parts : List (Option (List T) × DiffClump T)) (last : List T)
    (h : diffClumps p before after context = .ok (parts.map (·.2)))
    (hsz : before.length + after.length + (havingNew parts last).length ≤ maxLines)
    (he : ∀ x ∈ turned parts, Evident (havingNew parts last) x) (hr : FoundInTime (havingNew parts last) 0 0 (turned parts)) :
    (applyInto .release (parts.map (·.2)) (havingNew parts last) true).run =
      (.ok { clean := unshifted 0 0 (turned parts), fuzzy := shifted 0 0 (turned parts), failed := missing parts },
        withConflictsBack parts last) :=
  (C148_exact p .release before after context hctx parts last h hsz
    (fitsIfThere_of_evident (last := last) (front := []) (by rw [having_turned]; rfl) rfl he)).1.2 ⟨hr, fun h => nomatch h⟩

end

/-- In the program: the exit status is 0 all the same, and the file with the conflicts replaces the one that was there. -/
theorem C148_program (p : Profile) (temp patch target : Path) (w : World) (hf : w.faults = []) (d : TextChangeDiff)
    (hp : HoldsDiff w.fs patch (.textChange d)) (htg : d.beforePath = target) (hfree : w.fs.node (w.fs.entry temp) = none)
    (before after : List Str) (context : Nat) (hctx : context ≤ 255) (parts : List (Option (List Str) × DiffClump Str)) (last : List Str)
    (hd : d.clumps = parts.map (·.2)) (h : diffClumps p before after context = .ok d.clumps)
    (s : Str) (hold : w.fs.contentAt target = some ⟨s.bytes, false⟩) (hs : splitInclusive s = havingNew parts last)
    (hsz : before.length + after.length + (splitInclusive s).length ≤ maxLines)
    (he : ∀ x ∈ turned parts, Evident (splitInclusive s) x) (hr : FoundInTime (splitInclusive s) 0 0 (turned parts)) :
    (pwPatch .release temp patch true).run w = (.exited 0,
      { w with fs := w.fs.set (w.fs.entry target) (some (.file (withConflictsBack parts last))) }) := by
  subst htg
  refine C46_normal .release temp patch d.beforePath true w (.textChange d) hp rfl hf hfree hold
    ⟨s, { clean := unshifted 0 0 (turned parts), fuzzy := shifted 0 0 (turned parts), failed := missing parts }, rfl, ?_⟩
  rw [hs] at hsz he hr ⊢
  rw [hd] at h ⊢
  exact C148_once p before after context hctx parts last h hsz he hr

theorem someThere_foundBack (last : List Str) : FoundInTime (havingNew someThere last) 0 0 (turned someThere) := by
  refine ⟨fun _ => ?_, trivial⟩
  simp only [searchLimit, searchRoom, coreLen, letters, DiffClump.swap, List.length_cons, List.length_nil,
    List.head?_cons, List.map_cons, List.map_nil, Option.map_some]
  omega

/-- The line `W` the second clump had added was changed. The conflict is written after the first clump. -/
theorem someThere_back : (applyInto .release (wovenParts.map (·.2)) (letters ['a', 'N', 'b', 'c', 'X', 'Y', 'e', 'f', 'g', 'Z', 'Q', 'i', 'j']) true).run =
    (.ok { fuzzy := 1, failed := 1 }, Str.bytes
      "a\nN\nb\nc\nd\ne\n<<<<<<<\ng\nZ\nW\ni\n=======\ng\nh\ni\n>>>>>>>\nf\ng\nZ\nQ\ni\nj\n".toList) :=
  (C148_once .debug _ _ 1 (by decide) someThere (letters ['f', 'g', 'Z', 'Q', 'i', 'j']) woven_diff (by decide +kernel) (by decide +kernel)
    (someThere_foundBack _)).trans (by decide +kernel)

/-- Debug builds too. -/
example : (applyInto .debug (someThere.map (·.2)) (havingNew someThere (letters ['f', 'g', 'Z', 'Q', 'i', 'j'])) true).run.1 =
    .ok { fuzzy := 1, failed := 1 } :=
  congrArg Prod.fst ((C148_exact .debug .debug _ _ 1 (by decide) someThere (letters ['f', 'g', 'Z', 'Q', 'i', 'j']) woven_diff (by decide +kernel)
    (fitsIfThere_of_evident (last := letters ['f', 'g', 'Z', 'Q', 'i', 'j']) (front := []) rfl rfl (by decide +kernel))).1.2
    ⟨someThere_foundBack _, fun _ => ⟨⟨by unfold Underflow; decide +kernel, by unfold Underflow; decide +kernel⟩, trivial⟩⟩)

/-- The situation for the program. -/
example : ∃ w r, (pwPatch .release [84] [67] true).run w = (.exited 0, r) ∧
    w.fs.contentAt [65] = some ⟨bytesOf (letters ['a', 'N', 'b', 'c', 'X', 'Y', 'e', 'f', 'g', 'Z', 'Q', 'i', 'j']), false⟩ ∧
    r.fs.contentAt [65] = some ⟨withConflictsBack someThere (letters ['f', 'g', 'Z', 'Q', 'i', 'j']), false⟩ := by
  obtain ⟨e1, e2, e3, e3', e4, e5, e6, e6', e7, e8⟩ := FS.ofFiles_two
    (bytesOf (letters ['a', 'N', 'b', 'c', 'X', 'Y', 'e', 'f', 'g', 'Z', 'Q', 'i', 'j']))
    (Diff.textChange ⟨[65], [66], someThere.map (·.2)⟩).fileContent
  generalize FS.ofFiles [([65], _), ([67], _)] = fs at *
  have e : splitInclusive (letters ['a', 'N', 'b', 'c', 'X', 'Y', 'e', 'f', 'g', 'Z', 'Q', 'i', 'j']).flatten =
      havingNew someThere (letters ['f', 'g', 'Z', 'Q', 'i', 'j']) := by decide +kernel
  have h := C148_program .debug [84] [67] [65] ⟨fs, [], []⟩ rfl ⟨[65], [66], someThere.map (·.2)⟩ ?_ rfl ?_
    _ _ 1 (by decide) someThere (letters ['f', 'g', 'Z', 'Q', 'i', 'j']) rfl woven_diff
    (letters ['a', 'N', 'b', 'c', 'X', 'Y', 'e', 'f', 'g', 'Z', 'Q', 'i', 'j']).flatten ?_ e (by decide +kernel) (by decide +kernel)
    (by rw [e]; exact someThere_foundBack _)
  · exact ⟨_, _, h, e7, FS.contentAt_of_file (by simp)⟩
  · refine holdsDiff_of_file ?_ ?_ e8
    · intro c hc
      simp only [someThere, List.map_cons, List.map_nil, List.mem_cons, List.not_mem_nil, or_false] at hc
      rcases hc with rfl | rfl <;> simp [DiffClump.InRange, wordSize]
    · intro path h
      simp only [Diff.paths, List.mem_cons, List.not_mem_nil, or_false] at h
      rcases h with rfl | rfl
      · exact ⟨['A'], by decide⟩
      · exact ⟨['B'], by decide⟩
  · show fs.node (fs.entry [84]) = none
    rw [e3, e6']
  · exact e7.trans (by decide +kernel)

end PwDiff
