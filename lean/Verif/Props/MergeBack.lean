import Verif.Props.Merge
import Verif.Props.EitherBack

/-! # C149: one of the two sides of a merge is taken out again -/

namespace PwDiff

section

variable {T : Type}

theorem own_tail {which : Bool} {x : Owned T} {parts : List (Owned T)} {P : DiffClump T → Prop}
    (h : ∀ c ∈ ownClumps which (x :: parts), P c) : ∀ c ∈ ownClumps which parts, P c := by
  intro c hc
  refine h c ?_
  simp only [ownClumps, List.mem_map, List.mem_filter] at hc ⊢
  obtain ⟨y, ⟨hy, e1⟩, e2⟩ := hc
  exact ⟨y, ⟨List.mem_cons_of_mem _ hy, e1⟩, e2⟩

/-- If the other patch adds no lines, no clump is further down, after both were applied, than after its own patch was. -/
theorem withinSearch_merged (which : Bool) {skip : CommonSubsequence → Prop} {before after l : List T} {base i j ie je pos : Nat} {offset : Int}
    {lead : List T} {parts : List (Owned T)} (h : InBase base parts) (hd : Diffed skip before after i j (ownClumps which parts) ie je)
    (hi : i ≤ base) (hn : ∀ c ∈ ownClumps (!which) parts, c.after.items.length ≤ c.before.items.length)
    (hle : ((pos + lead.length : Nat) : Int) ≤ base - i + j + offset) :
    WithinSearch DiffClump.after l pos offset (forPatch which true lead parts) := by
  induction parts generalizing base pos offset lead i j with
  | nil => trivial
  | cons x parts ih =>
    obtain ⟨h1, h2⟩ := h
    by_cases hx : (x.first == which) = true
    · rw [forPatch, if_pos hx]
      have e : ownClumps which (x :: parts) = x.clump :: ownClumps which parts := by simp [ownClumps, hx]
      rw [e] at hd
      obtain ⟨⟨n, d1, d2, -⟩, -, -, d3⟩ := hd
      refine ⟨fun hlt => ?_, ih h2 d3 (by omega) (own_tail hn) ?_⟩
      · simp only [List.length_append] at hlt
        omega
      · simp only [List.length_append, List.length_nil]
        omega
    · rw [forPatch, if_neg hx]
      have e : ownClumps which (x :: parts) = ownClumps which parts := by simp [ownClumps, hx]
      rw [e] at hd
      have hlen := hn x.clump (by
        simp only [ownClumps, List.mem_map, List.mem_filter]
        refine ⟨x, ⟨List.mem_cons_self, ?_⟩, rfl⟩
        revert hx
        cases x.first <;> cases which <;> simp)
      refine ih h2 hd (by omega) (own_tail hn) ?_
      simp only [List.length_append, sideOf]
      omega

theorem length_withPatches (parts : List (Owned T)) (last : List T) :
    (withPatches true true parts last).length + (withPatches false false parts last).length =
      (withPatches true false parts last).length + (withPatches false true parts last).length := by
  induction parts with
  | nil => simp [withPatches]
  | cons x parts ih =>
    obtain ⟨gap, c, _ | _⟩ := x <;> simp [withPatches, sideOf] <;> omega

end

section

variable {T : Type} [DecidableEq T] [Item T] [LawfulItem T]

omit [Item T] [LawfulItem T] in
theorem count_withPatches (y : T) (parts : List (Owned T)) (last : List T) :
    (withPatches true true parts last).count y + (withPatches false false parts last).count y =
      (withPatches true false parts last).count y + (withPatches false true parts last).count y := by
  induction parts with
  | nil => simp [withPatches]
  | cons x parts ih =>
    obtain ⟨gap, c, _ | _⟩ := x <;> simp [withPatches, sideOf] <;> omega

/-- A line the clump adds is in the two versions, together, once more often than in the common file; so it is in the merged file once. -/
def AddsOnce {T : Type} [DecidableEq T] (base mine theirs : List T) (c : DiffClump T) : Prop :=
  ∃ y ∈ trim c.contextLengths c.after.items, mine.count y + theirs.count y = base.count y + 1

instance {T : Type} [DecidableEq T] (base mine theirs : List T) (c : DiffClump T) : Decidable (AddsOnce base mine theirs c) := by
  unfold AddsOnce; infer_instance

/-- Two people change the same file as in C147, every clump with a line that is new. Of the merged file, my patch can be taken back again,
which leaves their version, and so can theirs, which leaves mine. No clump fails. The merged file has what each has more than the base. -/
theorem C149_unmerge (p p' q : Profile) (base mine theirs : List T) (context context' : Nat) (hctx : context ≤ 255) (hctx' : context' ≤ 255)
    (cs cs' : List (DiffClump T)) (h : diffClumps p base mine context = .ok cs) (h' : diffClumps p' base theirs context' = .ok cs')
    (hsz : 2 * base.length + 2 * mine.length + 2 * theirs.length ≤ maxLines)
    (hdis : ∀ c ∈ cs, ∀ c' ∈ cs', c.before.start + c.before.items.length ≤ c'.before.start ∨
      c'.before.start + c'.before.items.length ≤ c.before.start)
    (hi : NoIsland base mine) (hi' : NoIsland base theirs)
    (hn : ∀ c ∈ cs, c.after.items.length ≤ c.before.items.length) (hn' : ∀ c ∈ cs', c.after.items.length ≤ c.before.items.length)
    (hu : ∀ c ∈ cs, ChangesUnique theirs c) (hu' : ∀ c ∈ cs', ChangesUnique mine c)
    (hb : ∀ c ∈ cs, AddsOnce base mine theirs c) (hb' : ∀ c ∈ cs', AddsOnce base mine theirs c) :
    ∃ merged : List T, (∀ y, merged.count y + base.count y = mine.count y + theirs.count y) ∧
      (∃ st, (applyInto q cs theirs false).run = (.ok st, bytesOf merged)) ∧ (∃ st, (applyInto q cs' mine false).run = (.ok st, bytesOf merged)) ∧
      (∃ st, (applyInto q cs merged true).run = (.ok st, bytesOf theirs) ∧
        st.clean + st.fuzzy = cs.length ∧ st.failed = 0) ∧
      (∃ st, (applyInto q cs' merged true).run = (.ok st, bytesOf mine) ∧
        st.clean + st.fuzzy = cs'.length ∧ st.failed = 0) := by
  obtain ⟨parts, last, p1, p2, p3, p4, -, -, m1, m2, m3, m4, m5, m6⟩ :=
    C147_merge p p' q base mine theirs context context' hctx hctx' cs cs' h h' hsz hdis
  obtain ⟨-, changes, -, hd⟩ := diffClumps_full hctx h
  obtain ⟨-, changes', -, hd'⟩ := diffClumps_full hctx' h'
  have e1 := m1 hi
  have e2 := m2 hi'
  have hl := length_withPatches parts last
  rw [p3, e1, e2] at hl
  rw [e2] at m3 m5
  rw [e1] at m4 m6
  obtain ⟨st, r1, -⟩ := m5 (m3 hn' hu)
  obtain ⟨st', s1, -⟩ := m6 (m4 hn hu')
  have run : ∀ (p : Profile) (after : List T) (context : Nat), context ≤ 255 → ∀ which (skip : CommonSubsequence → Prop),
      diffClumps p base after context = .ok (ownClumps which parts) →
      Diffed skip base after 0 0 (ownClumps which parts) base.length after.length →
      base.length + after.length + (withPatches true true parts last).length ≤ maxLines →
      (∀ c ∈ ownClumps (!which) parts, c.after.items.length ≤ c.before.items.length) →
      (∀ c ∈ ownClumps which parts, ChangesUnique (withPatches true true parts last) c.swap) →
      ∃ st, (applyInto q (ownClumps which parts) (withPatches true true parts last) true).run =
        (.ok st, bytesOf (seenBy which false true parts last)) ∧ st.clean + st.fuzzy = (ownClumps which parts).length ∧ st.failed = 0 := by
    intro p after context hctx which skip h hd hsz hn hu
    have e : seenBy which true true parts last = withPatches true true parts last := by cases which <;> rfl
    have := (C146_exact p q base after context hctx which true parts last h (by rw [e]; exact hsz)
      (onlyThere_locatableBack (by rw [e]; exact hu))).2 (withinSearch_merged which p4 hd (Nat.le_refl 0) hn (by simp))
    rw [e] at this
    refine ⟨_, this, ?_, rfl⟩
    have := shifts_le DiffClump.after 0 0 (forPatch which true [] parts)
    rw [← List.length_map (f := fun x => x.2), (forPatch_spec which true [] parts last).1] at this
    simp only
    omega
  have once : ∀ c, AddsOnce base mine theirs c → ChangesUnique (withPatches true true parts last) c.swap := by
    rintro c ⟨y, hy, e⟩
    have := count_withPatches y parts last
    rw [p3, e1, e2] at this
    exact ⟨y, hy, by omega⟩
  refine ⟨withPatches true true parts last, fun y => ?_, ⟨_, r1⟩, ⟨_, s1⟩, ?_, ?_⟩
  · have := count_withPatches y parts last
    rw [p3, e1, e2] at this
    omega
  · have := run p mine context hctx true _ (by rw [p1]; exact h) (by rw [p1]; exact hd) (by omega) (by rw [Bool.not_true, p2]; exact hn')
      (by rw [p1]; exact fun c hc => once c (hb c hc))
    simp only [seenBy, if_true] at this
    rw [p1, e2] at this
    exact this
  · have := run p' theirs context' hctx' false _ (by rw [p2]; exact h') (by rw [p2]; exact hd') (by omega)
      (by rw [Bool.not_false, p1]; exact hn) (by rw [p2]; exact fun c hc => once c (hb' c hc))
    simp only [seenBy, Bool.false_eq_true, if_false] at this
    rw [p2, e1] at this
    exact this

end

/-- Mine puts `U` in the place of `b` and `c`. -/
def unmergeMine : List Str := letters ['a', 'U', 'd', 'e', 'f', 'g', 'h', 'i', 'X', 'Y', 'l', 'm', 'n', 'o', 'p']

theorem unmerge_mine : diffClumps .debug mergeBase unmergeMine 1 =
    .ok [⟨(1, 1), ⟨0, letters ['a', 'b', 'c', 'd']⟩, ⟨0, letters ['a', 'U', 'd']⟩⟩,
      ⟨(1, 1), ⟨8, letters ['i', 'j', 'k', 'l']⟩, ⟨7, letters ['i', 'X', 'Y', 'l']⟩⟩] := by decide +kernel

example (q : Profile) := C149_unmerge .debug .debug q mergeBase unmergeMine mergeTheirs 1 1 (by decide) (by decide) _ _ unmerge_mine merge_theirs
  (by decide +kernel) (by decide +kernel) (noIsland_of_check (by decide +kernel)) (noIsland_of_check (by decide +kernel))
  (by decide +kernel) (by decide +kernel) (by decide +kernel) (by decide +kernel) (by decide +kernel) (by decide +kernel)

/-- The same of `pw_patch`, where all lines end with a line feed: to their version `s` my patch is applied; then it can be taken back, which
leaves everything as it was, or theirs can, which leaves my version `r`. All runs end with exit status 0. -/
theorem C149_program (p p' q : Profile) (temp patch patch' target : Path) (w : World) (hf : w.faults = []) (d d' : TextChangeDiff)
    (content content' : List UInt8) (hp : w.fs.node (w.fs.entry patch) = some (.file content))
    (hp' : w.fs.node (w.fs.entry patch') = some (.file content')) (hc : Diff.fromReader ⟨content, false⟩ = .ok (.textChange d))
    (hc' : Diff.fromReader ⟨content', false⟩ = .ok (.textChange d')) (ht : d.beforePath = target) (ht' : d'.beforePath = target)
    (hfree : w.fs.node (w.fs.entry temp) = none) (hne : w.fs.entry patch ≠ w.fs.entry target) (hne' : w.fs.entry patch' ≠ w.fs.entry target)
    (base r s : Str) (context context' : Nat) (hctx : context ≤ 255) (hctx' : context' ≤ 255)
    (h : diffClumps p (splitInclusive base) (splitInclusive r) context = .ok d.clumps)
    (h' : diffClumps p' (splitInclusive base) (splitInclusive s) context' = .ok d'.clumps)
    (hold : w.fs.node (w.fs.entry target) = some (.file s.bytes))
    (hwhole : ∀ y ∈ splitInclusive r ++ splitInclusive s, WholeLine y)
    (hsz : 2 * (splitInclusive base).length + 2 * (splitInclusive r).length + 2 * (splitInclusive s).length ≤ maxLines)
    (hdis : ∀ c ∈ d.clumps, ∀ c' ∈ d'.clumps, c.before.start + c.before.items.length ≤ c'.before.start ∨
      c'.before.start + c'.before.items.length ≤ c.before.start)
    (hi : NoIsland (splitInclusive base) (splitInclusive r)) (hi' : NoIsland (splitInclusive base) (splitInclusive s))
    (hn : ∀ c ∈ d.clumps, c.after.items.length ≤ c.before.items.length)
    (hn' : ∀ c ∈ d'.clumps, c.after.items.length ≤ c.before.items.length)
    (hu : ∀ c ∈ d.clumps, ChangesUnique (splitInclusive s) c) (hu' : ∀ c ∈ d'.clumps, ChangesUnique (splitInclusive r) c)
    (hb : ∀ c ∈ d.clumps, AddsOnce (splitInclusive base) (splitInclusive r) (splitInclusive s) c)
    (hb' : ∀ c ∈ d'.clumps, AddsOnce (splitInclusive base) (splitInclusive r) (splitInclusive s) c) :
    ∃ v : World, (pwPatch q temp patch false).run w = (.exited 0, v) ∧ (pwPatch q temp patch true).run v = (.exited 0, w) ∧
      (pwPatch q temp patch' true).run v = (.exited 0, { w with fs := w.fs.set (w.fs.entry target) (some (.file r.bytes)) }) := by
  have hnt : w.fs.entry temp ≠ w.fs.entry target := by
    intro e
    rw [e, hold] at hfree
    cases hfree
  obtain ⟨merged, hm, ⟨st, r1⟩, -, ⟨st2, r2, -⟩, st3, r3, -⟩ := C149_unmerge p p' q _ _ _ context context' hctx hctx' _ _ h h' hsz hdis hi hi'
    hn hn' hu hu' hb hb'
  have hs : splitInclusive merged.flatten = merged := by
    have := splitInclusive_flatten (ls := merged) (rest := []) (fun y hy => by
      have h1 := hm y
      have h2 := (@List.count_pos_iff _ instBEqOfDecidableEq _ y merged).2 hy
      refine hwhole y ((@List.count_pos_iff _ instBEqOfDecidableEq _ y _).1 ?_)
      rw [@List.count_append _ instBEqOfDecidableEq]
      omega)
    simpa [show splitInclusive [] = [] from rfl] using this
  have bs : bytesOf merged = Str.bytes merged.flatten := by rw [← bytesOf_splitInclusive, hs]
  rw [← hs] at r2 r3
  rw [bytesOf_splitInclusive] at r2 r3
  rw [bs] at r1
  have g1 := C46_normal q temp patch target false w (.textChange d) ⟨_, FS.contentAt_of_file hp, hc⟩ (congrArg some ht) hf hfree
    (FS.contentAt_of_file hold) ⟨_, _, rfl, r1⟩
  refine ⟨_, g1, ?_, ?_⟩
  · have := C46_normal q temp patch target true { w with fs := w.fs.set (w.fs.entry target) (some (.file (Str.bytes merged.flatten))) }
      (.textChange d) ⟨⟨content, false⟩, FS.contentAt_of_file (by simp [hne, hp]), hc⟩ (congrArg some ht) hf (by simp [hnt, hfree])
      (FS.contentAt_of_file (c := Str.bytes merged.flatten) (by simp)) ⟨_, _, rfl, r2⟩
    rw [this]
    simp only [FS.set_entry, FS.set_set]
    rw [FS.set_same _ hold]
  · have := C46_normal q temp patch' target true { w with fs := w.fs.set (w.fs.entry target) (some (.file (Str.bytes merged.flatten))) }
      (.textChange d') ⟨⟨content', false⟩, FS.contentAt_of_file (by simp [hne', hp']), hc'⟩ (congrArg some ht') hf (by simp [hnt, hfree])
      (FS.contentAt_of_file (c := Str.bytes merged.flatten) (by simp)) ⟨_, _, rfl, r3⟩
    rw [this]
    simp only [FS.set_entry, FS.set_set]

/-- The situation: `A` is their version, and `C` and `D` are the patches. -/
example (q : Profile) : ∃ w v u : World, (pwPatch q [84] [67] false).run w = (.exited 0, v) ∧ (pwPatch q [84] [67] true).run v = (.exited 0, w) ∧
    (pwPatch q [84] [68] true).run v = (.exited 0, u) ∧ w.fs.contentAt [65] = some ⟨bytesOf mergeTheirs, false⟩ ∧
    u.fs.contentAt [65] = some ⟨bytesOf unmergeMine, false⟩ := by
  have eb : splitInclusive mergeBase.flatten = mergeBase := by decide +kernel
  have em : splitInclusive unmergeMine.flatten = unmergeMine := by decide +kernel
  have et : splitInclusive mergeTheirs.flatten = mergeTheirs := by decide +kernel
  have bm : bytesOf unmergeMine = Str.bytes unmergeMine.flatten := by rw [← bytesOf_splitInclusive, em]
  have bt : bytesOf mergeTheirs = Str.bytes mergeTheirs.flatten := by rw [← bytesOf_splitInclusive, et]
  have whole : ∀ y ∈ unmergeMine ++ mergeTheirs, WholeLine y := by
    intro y hy
    have : ∃ a ∈ ['a', 'b', 'c', 'd', 'e', 'f', 'g', 'h', 'i', 'j', 'k', 'l', 'm', 'n', 'o', 'p', 'P', 'Q', 'U', 'X', 'Y'], y = ln a := by
      revert y
      decide +kernel
    obtain ⟨a, ha, rfl⟩ := this
    refine ⟨[a], rfl, ?_⟩
    revert a
    decide
  obtain ⟨e1, e2, e3, e4, e5, e6, e7, e8, e9, e10, e11⟩ := FS.ofFiles_patches (bytesOf mergeTheirs)
    (Diff.textChange ⟨[65], [66], [⟨(1, 1), ⟨0, letters ['a', 'b', 'c', 'd']⟩, ⟨0, letters ['a', 'U', 'd']⟩⟩,
      ⟨(1, 1), ⟨8, letters ['i', 'j', 'k', 'l']⟩, ⟨7, letters ['i', 'X', 'Y', 'l']⟩⟩]⟩).fileContent
    (Diff.textChange ⟨[65], [66], [⟨(1, 1), ⟨4, letters ['e', 'f', 'g', 'h']⟩, ⟨4, letters ['e', 'P', 'h']⟩⟩,
      ⟨(1, 0), ⟨14, letters ['o', 'p']⟩, ⟨13, letters ['o', 'Q']⟩⟩]⟩).fileContent
  generalize FS.ofFiles [([65], _), ([67], _), ([68], _)] = fs at *
  have read : ∀ (path : Path) (cs : List (DiffClump Str)), (∀ c ∈ cs, c.InRange) →
      fs.contentAt path = some ⟨(Diff.textChange ⟨[65], [66], cs⟩).fileContent, false⟩ →
      Diff.fromReader ⟨(Diff.textChange ⟨[65], [66], cs⟩).fileContent, false⟩ = .ok (.textChange ⟨[65], [66], cs⟩) := by
    intro path cs hr hc
    have : HoldsDiff fs path (.textChange ⟨[65], [66], cs⟩) := by
      refine holdsDiff_of_file hr ?_ hc
      intro path h
      simp only [Diff.paths, List.mem_cons, List.not_mem_nil, or_false] at h
      rcases h with rfl | rfl
      · exact ⟨['A'], by decide⟩
      · exact ⟨['B'], by decide⟩
    obtain ⟨r, hr1, hr2⟩ := this
    obtain rfl := Option.some.inj (hc.symm.trans hr1)
    exact hr2
  obtain ⟨v, g1, g2, g3⟩ := C149_program .debug .debug q [84] [67] [68] [65] ⟨fs, [], []⟩ rfl _ _ _ _ (by rw [e2, e6]) (by rw [e3, e7])
    (read [67] _ (by
      intro c hc
      simp at hc
      rcases hc with rfl | rfl <;> simp [DiffClump.InRange, wordSize]) e10)
    (read [68] _ (by
      intro c hc
      simp at hc
      rcases hc with rfl | rfl <;> simp [DiffClump.InRange, wordSize]) e11) rfl rfl (by rw [e4, e8]) (by rw [e1, e2]; decide) (by rw [e1, e3]; decide)
    mergeBase.flatten unmergeMine.flatten mergeTheirs.flatten 1 1 (by decide) (by decide) (by rw [eb, em]; exact unmerge_mine)
    (by rw [eb, et]; exact merge_theirs) (by rw [e1, e5, bt]) (by rw [em, et]; exact whole) (by rw [eb, em, et]; decide +kernel) (by decide +kernel)
    (by rw [eb, em]; exact noIsland_of_check (by decide +kernel)) (by rw [eb, et]; exact noIsland_of_check (by decide +kernel))
    (by decide +kernel) (by decide +kernel) (by rw [et]; decide +kernel) (by rw [em]; decide +kernel) (by rw [eb, em, et]; decide +kernel)
    (by rw [eb, em, et]; decide +kernel)
  exact ⟨_, v, _, g1, g2, g3, e9, by rw [bm]; exact FS.contentAt_of_file (by simp)⟩

/-- What one may expect: what my patch has made of their version can be made their version again by taking it back. -/
def C149_statement : Prop :=
  ∀ (p q : Profile) (base mine theirs : List Str) (context : Nat) (cs : List (DiffClump Str)) (st : Statistics) (merged : List Str),
    context ≤ 255 → diffClumps p base mine context = .ok cs → NoIsland base mine → (∀ c ∈ cs, ChangesUnique theirs c) →
    (applyInto q cs theirs false).run = (.ok st, bytesOf merged) → st.failed = 0 →
    (∀ c ∈ cs, ChangesUnique merged c.swap) → (applyInto q cs merged true).run.2 = bytesOf theirs

/-- That is not so: they may have made the change themselves, and kept one of the lines elsewhere. Then the patch changes nothing, and taking
it back takes back what they did. -/
theorem C149_refuted : ¬ C149_statement := by
  intro h
  have hx := h .debug .release (letters ['a', 'b', 'c', 'd', 'e']) (letters ['a', 'X', 'Y', 'd', 'e']) (letters ['a', 'X', 'Y', 'd', 'e', 'b']) 1
    [⟨(1, 1), ⟨0, letters ['a', 'b', 'c', 'd']⟩, ⟨0, letters ['a', 'X', 'Y', 'd']⟩⟩] { alreadyApplied := 1 }
    (letters ['a', 'X', 'Y', 'd', 'e', 'b']) (by decide) (by decide +kernel) (noIsland_of_check (by decide +kernel)) (by decide +kernel)
    (by decide +kernel) rfl (by decide +kernel)
  revert hx
  decide +kernel

end PwDiff
