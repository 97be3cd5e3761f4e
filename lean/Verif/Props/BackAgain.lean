import Verif.Props.Since
import Verif.Props.EitherBack

/-! # C150: a patch that could be applied to a file changed between its clumps can be taken back from it -/

namespace PwDiff

section

variable {T : Type}

/-- The limits of the search leave as much room for the new lines in the patched file as for the old ones before. -/
theorem within_both {skip : CommonSubsequence → Prop} {before after l l' last : List T} {i j ie je pos pos' : Nat} {offset : Int}
    {parts : List (List T × DiffClump T)} (hd : Diffed skip before after i j (parts.map (·.2)) ie je)
    (hctx : ∀ x ∈ parts, x.2.contextLengths.1 + x.2.contextLengths.2 ≤ x.2.before.items.length ∧
      x.2.contextLengths.1 + x.2.contextLengths.2 ≤ x.2.after.items.length)
    (hpos : pos' + i = pos + j) (hl : l.length = pos + (woven DiffClump.before parts last).length)
    (hl' : l'.length = pos' + (woven DiffClump.after parts last).length) :
    (WithinSearch DiffClump.before l pos offset parts ↔ WithinSearch DiffClump.after l' pos' offset parts) ∧
      shifts DiffClump.before pos offset parts = shifts DiffClump.after pos' offset parts := by
  induction parts generalizing i j pos pos' offset with
  | nil => exact ⟨Iff.rfl, rfl⟩
  | cons x parts ih =>
    obtain ⟨gap, c⟩ := x
    obtain ⟨⟨n, d1, d2, -⟩, -, -, d3⟩ := hd
    have hc := hctx _ List.mem_cons_self
    simp only at d1 d2 d3 hc
    simp only [woven, List.length_append] at hl hl'
    have ho : ((pos + gap.length : Nat) : Int) - c.before.start = (pos' + gap.length : Nat) - c.after.start := by omega
    obtain ⟨g1, g2⟩ := ih (pos := pos + gap.length + c.before.items.length) (pos' := pos' + gap.length + c.after.items.length)
      (offset := (pos' + gap.length : Nat) - c.after.start) d3 (fun x hx => hctx x (List.mem_cons_of_mem _ hx)) (by omega) (by omega) (by omega)
    constructor
    · simp only [WithinSearch]
      rw [ho, g1]
      refine and_congr_left fun _ => ?_
      have hlim : searchLimit l c.contextLengths c.before (parts.head?.map fun x => x.2.before) offset - pos =
          searchLimit l' c.contextLengths c.after (parts.head?.map fun x => x.2.after) offset - pos' := by
        cases parts with
        | nil =>
          simp only [searchLimit, searchRoom, coreLen, List.head?_nil, Option.map_none, woven] at hl hl' ⊢
          omega
        | cons y parts =>
          obtain ⟨⟨m, f1, f2, -⟩, -⟩ := d3
          simp only at f1 f2
          simp only [searchLimit, searchRoom, coreLen, List.head?_cons, Option.map_some]
          omega
      constructor <;> intro h hlt <;> have := h (by omega) <;> omega
    · simp only [shifts]
      rw [ho, g2]
      congr 1
      split <;> split <;> omega

end

section

variable {T : Type} [DecidableEq T] [Item T] [LawfulItem T]

/-- A patch, and a file in which the old lines of its clumps are, in order, with any lines between them, and fit nowhere else; once they
are replaced, the new lines fit nowhere else either. Applying the patch to the file replaces the old lines by the new ones if and only if
taking it back from the result puts the old lines back, and the same clumps are then found elsewhere. -/
theorem C150_exact (p q q' : Profile) (before after : List T) (context : Nat) (hctx : context ≤ 255)
    (parts : List (List T × DiffClump T)) (last : List T)
    (h : diffClumps p before after context = .ok (parts.map (·.2)))
    (hsz : before.length + after.length + (woven DiffClump.before parts last).length ≤ maxLines)
    (hsz' : before.length + after.length + (woven DiffClump.after parts last).length ≤ maxLines)
    (hu : OnlyThere DiffClump.before (woven DiffClump.before parts last) 0 parts)
    (hu' : OnlyThere DiffClump.after (woven DiffClump.after parts last) 0 parts) :
    let st : Statistics := { fuzzy := shifts DiffClump.before 0 0 parts, clean := parts.length - shifts DiffClump.before 0 0 parts }
    (applyInto q (parts.map (·.2)) (woven DiffClump.before parts last) false).run = (.ok st, bytesOf (woven DiffClump.after parts last)) ↔
      (applyInto q' (parts.map (·.2)) (woven DiffClump.after parts last) true).run =
        (.ok st, bytesOf (woven DiffClump.before parts last)) := by
  obtain ⟨hd, changes, -, hd2⟩ := diffClumps_full hctx h
  obtain ⟨b1, b2⟩ := within_both (l := woven DiffClump.before parts last) (l' := woven DiffClump.after parts last) (last := last) (pos := 0)
    (pos' := 0) (offset := 0) hd2 (fun x hx => hd.ctx x.2 (List.mem_map_of_mem hx)) rfl (by simp) (by simp)
  have := C137_reverse p q' before after context hctx parts last h hsz' hu'
  rw [← b2] at this
  exact (C137_exact p q before after context hctx parts last h hsz hu).1.trans (b1.trans this.symm)

/-- If a patch could be applied, no clump failing and none found to be applied already, to a file in which each clump removes a line that is
there only once, and each adds a line that is in the result only once, it can be taken back from the result, and the file is as it was. -/
theorem C150_once (p q q' : Profile) (before after : List T) (context : Nat) (hctx : context ≤ 255)
    (parts : List (List T × DiffClump T)) (last : List T)
    (h : diffClumps p before after context = .ok (parts.map (·.2)))
    (hsz : before.length + after.length + (woven DiffClump.before parts last).length ≤ maxLines)
    (hsz' : before.length + after.length + (woven DiffClump.after parts last).length ≤ maxLines)
    (hu : ∀ x ∈ parts, ChangesUnique (woven DiffClump.before parts last) x.2)
    (hu' : ∀ x ∈ parts, ChangesUnique (woven DiffClump.after parts last) x.2.swap) (st : Statistics) (out : List UInt8)
    (hrun : (applyInto q (parts.map (·.2)) (woven DiffClump.before parts last) false).run = (.ok st, out))
    (h1 : st.alreadyApplied = 0) (h2 : st.alreadyAppliedFuzzy = 0) (h3 : st.failed = 0) :
    out = bytesOf (woven DiffClump.after parts last) ∧
    (applyInto q' (parts.map (·.2)) (woven DiffClump.after parts last) true).run = (.ok st, bytesOf (woven DiffClump.before parts last)) := by
  have hd := (diffClumps_full hctx h).1
  have hw := hd.wellFormed (by omega) (by omega)
  have hwt := hd.weight
  have ho := onlyThere_of_once (last := last) (front := []) rfl rfl hu
  have hlim : (woven DiffClump.before parts last).length + weight (parts.map (·.2)) < sizeLimit := by
    simp only [maxLines] at hsz
    simp only [sizeLimit]
    omega
  have hr := withinSearch_of (front := []) rfl rfl ho ((C57_refines q (woven DiffClump.before parts last) _ hw hlim _ _).1 hrun)
    (by rw [h1, h2, h3]; exact Nat.zero_le _)
  obtain ⟨e1, e2, -, -, e5, -⟩ := swap_parts (woven DiffClump.after parts last) parts last 0 0
  have ho' : OnlyThere DiffClump.after (woven DiffClump.after parts last) 0 parts := by
    refine e5.1 (onlyThere_of_once (last := last) (front := []) (by rw [e2]; rfl) rfl fun x hx => ?_)
    obtain ⟨y, hy, rfl⟩ := List.mem_map.1 hx
    exact hu' y hy
  obtain ⟨-, changes, -, hd2⟩ := diffClumps_full hctx h
  obtain ⟨b1, b2⟩ := within_both (l := woven DiffClump.before parts last) (l' := woven DiffClump.after parts last) (last := last) (pos := 0)
    (pos' := 0) (offset := 0) hd2 (fun x hx => hd.ctx x.2 (List.mem_map_of_mem hx)) rfl (by simp) (by simp)
  have hto := (C137_exact p q before after context hctx parts last h hsz ho).1.2 hr
  have hback := (C137_reverse p q' before after context hctx parts last h hsz' ho').2 (b1.1 hr)
  rw [hrun] at hto
  injection hto with hst hout
  injection hst with hst
  rw [hst, hback, b2]
  exact ⟨hout, rfl⟩

/-- Two patches that can be applied to a file in either order, as in C145, can be taken back in either order too if every clump has added
a line that is in the file only once, whether the other patch is applied or not: there is no condition on where they stand. -/
theorem C150_two (p p' q : Profile) (before after before' after' : List T) (context context' : Nat) (hctx : context ≤ 255)
    (hctx' : context' ≤ 255) (parts : List (Owned T)) (last : List T)
    (h : diffClumps p before after context = .ok (ownClumps true parts))
    (h' : diffClumps p' before' after' context' = .ok (ownClumps false parts))
    (hsz : ∀ one two, before.length + after.length + before'.length + after'.length + (withPatches one two parts last).length ≤ maxLines)
    (hp : ∀ which other, Locatable which other parts last)
    (hu : ∀ which other, ∀ c ∈ ownClumps which parts, ChangesUnique (seenBy which true other parts last) c.swap) :
    ∃ s1 s2 s3 s4 : Statistics,
      (applyInto q (ownClumps true parts) (withPatches true true parts last) true).run = (.ok s1, bytesOf (withPatches false true parts last)) ∧
      (applyInto q (ownClumps false parts) (withPatches false true parts last) true).run = (.ok s2, bytesOf (withPatches false false parts last)) ∧
      (applyInto q (ownClumps false parts) (withPatches true true parts last) true).run = (.ok s3, bytesOf (withPatches true false parts last)) ∧
      (applyInto q (ownClumps true parts) (withPatches true false parts last) true).run = (.ok s4, bytesOf (withPatches false false parts last)) ∧
      ∀ s ∈ [s1, s2, s3, s4], s.failed = 0 ∧ s.alreadyApplied = 0 ∧ s.alreadyAppliedFuzzy = 0 := by
  have back : ∀ (p : Profile) (before after : List T) (context : Nat), context ≤ 255 → ∀ which other,
      diffClumps p before after context = .ok (ownClumps which parts) → LocatableBack which other parts last := by
    intro p before after context hctx which other h
    refine ⟨hu which other, ?_⟩
    obtain ⟨e1, e2, e3⟩ := forPatch_spec which other [] parts last
    rw [List.nil_append] at e2 e3
    obtain ⟨hd, changes, -, hd2⟩ := diffClumps_full hctx h
    rw [← e1] at hd hd2
    exact (within_both (l := seenBy which false other parts last) (last := afterPatch which other [] parts last) (pos := 0) (pos' := 0)
      (offset := 0) hd2 (fun x hx => hd.ctx x.2 (List.mem_map_of_mem hx)) rfl (by rw [e2]; simp) (by rw [e3]; simp)).1.1 (hp which other).2
  refine C146_either p p' q before after before' after' context context' hctx hctx' parts last h h' hsz fun which other => ?_
  cases which
  · exact back p' before' after' context' hctx' false other h'
  · exact back p before after context hctx true other h

end

example (q : Profile) := C150_two .debug .debug q _ _ _ _ 1 1 (by decide) (by decide) ownedParts (letters ['j', 'k'])
  (by exact woven_diff) owned_diff (by decide +kernel) owned_locatable (by decide +kernel)

example (q q' : Profile) := C150_exact .debug q q' _ _ 1 (by decide) wovenParts (letters ['j', 'k']) woven_diff (by decide +kernel)
  (by decide +kernel) (onlyThere_of_once (last := letters ['j', 'k']) (front := []) rfl rfl (by decide +kernel)) wovenParts_after

/-- The patch of C137: the first clump is found a line further down, then and when it is taken back. -/
example (q' : Profile) : (applyInto q' (wovenParts.map (·.2)) (letters ['a', 'N', 'b', 'c', 'X', 'Y', 'e', 'g', 'Z', 'W', 'i', 'j', 'k']) true).run =
    (.ok { fuzzy := 2 }, bytesOf (letters ['a', 'N', 'b', 'c', 'd', 'e', 'g', 'h', 'i', 'j', 'k'])) :=
  (C150_once .debug .release q' _ _ 1 (by decide) wovenParts (letters ['j', 'k']) woven_diff (by decide +kernel) (by decide +kernel)
    (by decide +kernel) (by decide +kernel) { fuzzy := 2 } (bytesOf (letters ['a', 'N', 'b', 'c', 'X', 'Y', 'e', 'g', 'Z', 'W', 'i', 'j', 'k']))
    (by decide +kernel) rfl rfl rfl).2

/-- The same of `pw_patch`: the patch is applied to the file `s`, giving `u`, and taken back, which leaves everything as it was. -/
theorem C150_program (p q q' : Profile) (temp patch target : Path) (w : World) (hf : w.faults = []) (d : TextChangeDiff) (content : List UInt8)
    (hp : w.fs.node (w.fs.entry patch) = some (.file content)) (hc : Diff.fromReader ⟨content, false⟩ = .ok (.textChange d))
    (ht : d.beforePath = target) (hfree : w.fs.node (w.fs.entry temp) = none) (hne : w.fs.entry patch ≠ w.fs.entry target)
    (before after : List Str) (context : Nat) (hctx : context ≤ 255) (parts : List (List Str × DiffClump Str)) (last : List Str)
    (hd : d.clumps = parts.map (·.2)) (h : diffClumps p before after context = .ok d.clumps) (s u : Str)
    (hold : w.fs.node (w.fs.entry target) = some (.file s.bytes)) (hs : splitInclusive s = woven DiffClump.before parts last)
    (hu : splitInclusive u = woven DiffClump.after parts last)
    (hsz : before.length + after.length + (splitInclusive s).length ≤ maxLines)
    (hsz' : before.length + after.length + (splitInclusive u).length ≤ maxLines)
    (h1 : ∀ x ∈ parts, ChangesUnique (splitInclusive s) x.2) (h2 : ∀ x ∈ parts, ChangesUnique (splitInclusive u) x.2.swap)
    (hr : WithinSearch DiffClump.before (splitInclusive s) 0 0 parts) :
    let v : World := { w with fs := w.fs.set (w.fs.entry target) (some (.file u.bytes)) }
    (pwPatch q temp patch false).run w = (.exited 0, v) ∧ (pwPatch q' temp patch true).run v = (.exited 0, w) := by
  have hnt : w.fs.entry temp ≠ w.fs.entry target := by
    intro e
    rw [e, hold] at hfree
    cases hfree
  rw [hs] at hsz h1 hr
  rw [hu] at hsz' h2
  rw [hd] at h
  have r1 := C137_once p q before after context hctx parts last h hsz h1 hr
  have r2 := (C150_once p q q' before after context hctx parts last h hsz hsz' h1 h2 _ _ r1 rfl rfl rfl).2
  rw [← hs, ← hu, ← hd, bytesOf_splitInclusive] at r1 r2
  refine ⟨C46_normal q temp patch target false w (.textChange d) ⟨_, FS.contentAt_of_file hp, hc⟩ (congrArg some ht) hf hfree
    (FS.contentAt_of_file hold) ⟨_, _, rfl, r1⟩, ?_⟩
  have := C46_normal q' temp patch target true { w with fs := w.fs.set (w.fs.entry target) (some (.file u.bytes)) } (.textChange d)
    ⟨⟨content, false⟩, FS.contentAt_of_file (by simp [hne, hp]), hc⟩ (congrArg some ht) hf (by simp [hnt, hfree])
    (FS.contentAt_of_file (c := u.bytes) (by simp)) ⟨_, _, rfl, r2⟩
  rw [this]
  simp only [FS.set_entry, FS.set_set]
  rw [FS.set_same _ hold]

/-- The situation: `A` is the file of C137 and `C` the patch. -/
example (q q' : Profile) : ∃ w v : World, (pwPatch q [84] [67] false).run w = (.exited 0, v) ∧ (pwPatch q' [84] [67] true).run v = (.exited 0, w) ∧
    w.fs.contentAt [65] = some ⟨Str.bytes "a\nN\nb\nc\nd\ne\ng\nh\ni\nj\nk\n".toList, false⟩ ∧
    v.fs.contentAt [65] = some ⟨Str.bytes "a\nN\nb\nc\nX\nY\ne\ng\nZ\nW\ni\nj\nk\n".toList, false⟩ := by
  obtain ⟨e1, e2, e3, e3', e4, e5, e6, e6', e7, e8⟩ := FS.ofFiles_two (Str.bytes "a\nN\nb\nc\nd\ne\ng\nh\ni\nj\nk\n".toList)
    (Diff.textChange ⟨[65], [66], wovenParts.map (·.2)⟩).fileContent
  generalize FS.ofFiles [([65], _), ([67], _)] = fs at *
  have hd : HoldsDiff fs [67] (.textChange ⟨[65], [66], wovenParts.map (·.2)⟩) := by
    refine holdsDiff_of_file ?_ ?_ e8
    · intro c hc
      simp only [wovenParts, List.map_cons, List.map_nil, List.mem_cons, List.not_mem_nil, or_false] at hc
      rcases hc with rfl | rfl <;> simp [DiffClump.InRange, wordSize]
    · intro path h
      simp only [Diff.paths, List.mem_cons, List.not_mem_nil, or_false] at h
      rcases h with rfl | rfl
      · exact ⟨['A'], by decide⟩
      · exact ⟨['B'], by decide⟩
  obtain ⟨r, hr1, hr2⟩ := hd
  obtain rfl := Option.some.inj (e8.symm.trans hr1)
  have hs : splitInclusive "a\nN\nb\nc\nd\ne\ng\nh\ni\nj\nk\n".toList = woven DiffClump.before wovenParts (letters ['j', 'k']) := by decide +kernel
  have hu : splitInclusive "a\nN\nb\nc\nX\nY\ne\ng\nZ\nW\ni\nj\nk\n".toList = woven DiffClump.after wovenParts (letters ['j', 'k']) := by
    decide +kernel
  have h := C150_program .debug q q' [84] [67] [65] ⟨fs, [], []⟩ rfl ⟨[65], [66], wovenParts.map (·.2)⟩ _ (by rw [e2, e5]) hr2 rfl
    (by rw [e3, e6']) (by rw [e1, e2]; decide) _ _ 1 (by decide) wovenParts (letters ['j', 'k']) rfl woven_diff _ _ (by rw [e1, e4]) hs hu
    (by rw [hs]; decide +kernel) (by rw [hu]; decide +kernel) (by rw [hs]; decide +kernel) (by rw [hu]; decide +kernel)
    (by rw [hs]; exact wovenParts_within)
  exact ⟨_, _, h.1, h.2, e7, FS.contentAt_of_file (by simp)⟩

/-- What one may expect: a patch that could be applied without a clump failing, or being found applied, can be taken back. -/
def C150_statement : Prop :=
  ∀ (p q : Profile) (before after l l' : List Str) (context : Nat) (cs : List (DiffClump Str)) (st : Statistics), context ≤ 255 →
    diffClumps p before after context = .ok cs → (applyInto q cs l false).run = (.ok st, bytesOf l') →
    st.alreadyApplied = 0 → st.alreadyAppliedFuzzy = 0 → st.failed = 0 → (applyInto q cs l' true).run.2 = bytesOf l

/-- That is not so: the new lines may have been in the file before, nearer to where they are expected. -/
theorem C150_refuted : ¬ C150_statement := by
  intro h
  have hx := h .debug .release (letters ['a', 'b', 'c', 'd', 'e']) (letters ['a', 'X', 'Y', 'd', 'e'])
    (letters ['a', 'X', 'Y', 'd', 'a', 'b', 'c', 'd', 'e']) (letters ['a', 'X', 'Y', 'd', 'a', 'X', 'Y', 'd', 'e']) 1
    [⟨(1, 1), ⟨0, letters ['a', 'b', 'c', 'd']⟩, ⟨0, letters ['a', 'X', 'Y', 'd']⟩⟩] { fuzzy := 1 } (by decide) (by decide +kernel)
    (by decide +kernel) rfl rfl rfl
  revert hx
  decide +kernel

end PwDiff
