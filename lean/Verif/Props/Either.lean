import Verif.Props.Rerun

/-! # C145: two patches whose clumps alternate in a file, applied in either order -/

namespace PwDiff

section

variable {T : Type}

/-- A part of a file: any lines, then those of a clump of the first or of the second of two patches. -/
structure Owned (T : Type) where
  gap : List T
  clump : DiffClump T
  first : Bool

/-- The file, with the first and the second patch applied or not. -/
def withPatches (one two : Bool) : List (Owned T) → List T → List T
  | [], last => last
  | x :: parts, last => x.gap ++ (sideOf (if x.first then one else two) x.clump).items ++ withPatches one two parts last

/-- The clumps of one of the patches. -/
def ownClumps (which : Bool) (parts : List (Owned T)) : List (DiffClump T) := (parts.filter (·.first == which)).map (·.clump)

/-- What the file is for one of the patches: its clumps, and between them anything, to which the lines of the other patch belong. -/
def forPatch (which other : Bool) : List T → List (Owned T) → List (List T × DiffClump T)
  | _, [] => []
  | lead, x :: parts =>
    if x.first == which then (lead ++ x.gap, x.clump) :: forPatch which other [] parts
    else forPatch which other (lead ++ x.gap ++ (sideOf other x.clump).items) parts

/-- What stands after its last clump. -/
def afterPatch (which other : Bool) : List T → List (Owned T) → List T → List T
  | lead, [], last => lead ++ last
  | lead, x :: parts, last =>
    if x.first == which then afterPatch which other [] parts last
    else afterPatch which other (lead ++ x.gap ++ (sideOf other x.clump).items) parts last

/-- The file when one of the patches is (or is not) applied and the other is (or is not). -/
def seenBy (which mine other : Bool) (parts : List (Owned T)) (last : List T) : List T :=
  if which then withPatches mine other parts last else withPatches other mine parts last

theorem seenBy_nil (which mine other : Bool) (last : List T) : seenBy which mine other [] last = last := by
  cases which <;> rfl

theorem seenBy_cons (which mine other : Bool) (x : Owned T) (parts : List (Owned T)) (last : List T) :
    seenBy which mine other (x :: parts) last =
      x.gap ++ (sideOf (if x.first == which then mine else other) x.clump).items ++ seenBy which mine other parts last := by
  obtain ⟨gap, c, f⟩ := x
  cases which <;> cases f <;> rfl

theorem forPatch_spec (which other : Bool) (lead : List T) (parts : List (Owned T)) (last : List T) :
    (forPatch which other lead parts).map (·.2) = ownClumps which parts ∧
    woven DiffClump.before (forPatch which other lead parts) (afterPatch which other lead parts last) =
      lead ++ seenBy which false other parts last ∧
    woven DiffClump.after (forPatch which other lead parts) (afterPatch which other lead parts last) =
      lead ++ seenBy which true other parts last := by
  induction parts generalizing lead with
  | nil => simp [forPatch, afterPatch, woven, seenBy_nil, ownClumps]
  | cons x parts ih =>
    by_cases hx : (x.first == which) = true
    · obtain ⟨i1, i2, i3⟩ := ih []
      unfold ownClumps at i1 ⊢
      simp [forPatch, afterPatch, woven, seenBy_cons, hx, i1, i2, i3, sideOf]
    · obtain ⟨i1, i2, i3⟩ := ih (lead ++ x.gap ++ (sideOf other x.clump).items)
      unfold ownClumps at i1 ⊢
      simp only [List.append_assoc] at i1 i2 i3
      simp [forPatch, afterPatch, seenBy_cons, hx, i1, i2, i3]

end

section

variable {T : Type} [DecidableEq T] [Item T] [LawfulItem T]

/-- Of two patches, made from whatever files, one is applied to a file in which the old lines of its clumps are, and the old or the new
lines of the clumps of the other one, in any order. If the former fit nowhere else all of them are replaced if and only if each one
further down than expected stands before the limit of the search. -/
theorem C145_exact (p q : Profile) (before after : List T) (context : Nat) (hctx : context ≤ 255) (which other : Bool)
    (parts : List (Owned T)) (last : List T) (h : diffClumps p before after context = .ok (ownClumps which parts))
    (hsz : before.length + after.length + (seenBy which false other parts last).length ≤ maxLines)
    (hu : OnlyThere DiffClump.before (seenBy which false other parts last) 0 (forPatch which other [] parts)) :
    (applyInto q (ownClumps which parts) (seenBy which false other parts last) false).run =
      (.ok { fuzzy := shifts DiffClump.before 0 0 (forPatch which other [] parts),
             clean := (ownClumps which parts).length - shifts DiffClump.before 0 0 (forPatch which other [] parts) },
        bytesOf (seenBy which true other parts last)) ↔
      WithinSearch DiffClump.before (seenBy which false other parts last) 0 0 (forPatch which other [] parts) := by
  obtain ⟨e1, e2, e3⟩ := forPatch_spec which other [] parts last
  rw [List.nil_append] at e2 e3
  have := (C137_exact p q before after context hctx (forPatch which other [] parts) (afterPatch which other [] parts last)
    (by rw [e1]; exact h) (by rw [e2]; exact hsz) (by rw [e2]; exact hu)).1
  rw [e1, e2, e3, show (forPatch which other [] parts).length = (ownClumps which parts).length by rw [← e1, List.length_map]] at this
  exact this

/-- Every clump of one of the patches changes a line that is in the file only once, and stands before the limit of the search if it is
further down than expected. -/
def Locatable (which other : Bool) (parts : List (Owned T)) (last : List T) : Prop :=
  (∀ c ∈ ownClumps which parts, ChangesUnique (seenBy which false other parts last) c) ∧
    WithinSearch DiffClump.before (seenBy which false other parts last) 0 0 (forPatch which other [] parts)

omit [Item T] [LawfulItem T] in
theorem onlyThere_locatable {which other : Bool} {parts : List (Owned T)} {last : List T}
    (h : ∀ c ∈ ownClumps which parts, ChangesUnique (seenBy which false other parts last) c) :
    OnlyThere DiffClump.before (seenBy which false other parts last) 0 (forPatch which other [] parts) := by
  obtain ⟨e1, e2, -⟩ := forPatch_spec which other [] parts last
  refine onlyThere_of_once (last := afterPatch which other [] parts last) (front := []) (by rw [e2]; rfl) rfl fun x hx => h _ ?_
  rw [← e1]
  exact List.mem_map_of_mem hx

/-- Two patches, made from whatever files, whose clumps stand in a file in any order: if each patch is recognised there (`Locatable`) before
and after the other one is applied, all four runs replace the old lines by the new ones and nothing else, so that in either order the same
file comes out. -/
theorem C145_either (p p' q : Profile) (before after before' after' : List T) (context context' : Nat) (hctx : context ≤ 255)
    (hctx' : context' ≤ 255) (parts : List (Owned T)) (last : List T)
    (h : diffClumps p before after context = .ok (ownClumps true parts))
    (h' : diffClumps p' before' after' context' = .ok (ownClumps false parts))
    (hsz : ∀ one two, before.length + after.length + before'.length + after'.length + (withPatches one two parts last).length ≤ maxLines)
    (hp : ∀ which other, Locatable which other parts last) :
    ∃ s1 s2 s3 s4 : Statistics,
      (applyInto q (ownClumps true parts) (withPatches false false parts last) false).run = (.ok s1, bytesOf (withPatches true false parts last)) ∧
      (applyInto q (ownClumps false parts) (withPatches true false parts last) false).run = (.ok s2, bytesOf (withPatches true true parts last)) ∧
      (applyInto q (ownClumps false parts) (withPatches false false parts last) false).run = (.ok s3, bytesOf (withPatches false true parts last)) ∧
      (applyInto q (ownClumps true parts) (withPatches false true parts last) false).run = (.ok s4, bytesOf (withPatches true true parts last)) ∧
      ∀ s ∈ [s1, s2, s3, s4], s.failed = 0 ∧ s.alreadyApplied = 0 ∧ s.alreadyAppliedFuzzy = 0 := by
  have run : ∀ (p : Profile) (before after : List T) (context : Nat), context ≤ 255 → ∀ which other,
      diffClumps p before after context = .ok (ownClumps which parts) →
      before.length + after.length + (seenBy which false other parts last).length ≤ maxLines →
      (applyInto q (ownClumps which parts) (seenBy which false other parts last) false).run =
      (.ok { fuzzy := shifts DiffClump.before 0 0 (forPatch which other [] parts),
             clean := (ownClumps which parts).length - shifts DiffClump.before 0 0 (forPatch which other [] parts) },
        bytesOf (seenBy which true other parts last)) := fun p before after context hctx which other h hsz =>
    (C145_exact p q before after context hctx which other parts last h hsz (onlyThere_locatable (hp which other).1)).2 (hp which other).2
  have z1 := hsz false false
  have z2 := hsz true false
  have z3 := hsz false true
  refine ⟨_, _, _, _, run p before after context hctx true false h (by simp only [seenBy, if_true]; omega),
    run p' before' after' context' hctx' false true h' (by simp only [seenBy, Bool.false_eq_true, if_false]; omega),
    run p' before' after' context' hctx' false false h' (by simp only [seenBy, Bool.false_eq_true, if_false]; omega),
    run p before after context hctx true true h (by simp only [seenBy, if_true]; omega), ?_⟩
  simp

end

/-- The lines of the clumps, and those between them, end with a line feed. -/
def AllWhole (parts : List (Owned Str)) : Prop :=
  ∀ x ∈ parts, (∀ y ∈ x.gap, WholeLine y) ∧ ∀ y ∈ x.clump.before.items ++ x.clump.after.items, WholeLine y

theorem split_withPatches (one two : Bool) (parts : List (Owned Str)) (t : Str) (hw : AllWhole parts) :
    splitInclusive (withPatches one two parts (splitInclusive t)).flatten = withPatches one two parts (splitInclusive t) := by
  have e : ∃ ls, (∀ y ∈ ls, WholeLine y) ∧ withPatches one two parts (splitInclusive t) = ls ++ splitInclusive t := by
    induction parts with
    | nil => exact ⟨[], by simp, rfl⟩
    | cons x parts ih =>
      obtain ⟨ls, h1, h2⟩ := ih fun y hy => hw y (List.mem_cons_of_mem _ hy)
      obtain ⟨hg, hc⟩ := hw x List.mem_cons_self
      refine ⟨x.gap ++ (sideOf (if x.first then one else two) x.clump).items ++ ls, fun y hy => ?_, by simp [withPatches, h2]⟩
      simp only [List.mem_append] at hy
      rcases hy with (hy | hy) | hy
      · exact hg y hy
      · refine hc y ?_
        revert hy
        cases (if x.first then one else two)
        · exact fun hy => List.mem_append_left _ hy
        · exact fun hy => List.mem_append_right _ hy
      · exact h1 y hy
  obtain ⟨ls, h1, h2⟩ := e
  rw [h2, List.flatten_append, flatten_splitInclusive, splitInclusive_flatten h1]

/-- C145 for `pw_patch`: all four runs end with exit status 0, and in either order the same is left. -/
theorem C145_program (p p' q : Profile) (temp one two target : Path) (w : World) (hf : w.faults = []) (d d' : TextChangeDiff)
    (content content' : List UInt8) (hp1 : w.fs.node (w.fs.entry one) = some (.file content))
    (hp2 : w.fs.node (w.fs.entry two) = some (.file content')) (hc1 : Diff.fromReader ⟨content, false⟩ = .ok (.textChange d))
    (hc2 : Diff.fromReader ⟨content', false⟩ = .ok (.textChange d')) (ht1 : d.beforePath = target) (ht2 : d'.beforePath = target)
    (hfree : w.fs.node (w.fs.entry temp) = none) (hne1 : w.fs.entry one ≠ w.fs.entry target) (hne2 : w.fs.entry two ≠ w.fs.entry target)
    (before after before' after' : List Str) (context context' : Nat) (hctx : context ≤ 255) (hctx' : context' ≤ 255)
    (parts : List (Owned Str)) (t : Str) (hw : AllWhole parts) (hd1 : d.clumps = ownClumps true parts)
    (hd2 : d'.clumps = ownClumps false parts) (h : diffClumps p before after context = .ok d.clumps)
    (h' : diffClumps p' before' after' context' = .ok d'.clumps)
    (hold : w.fs.node (w.fs.entry target) = some (.file (bytesOf (withPatches false false parts (splitInclusive t)))))
    (hsz : ∀ one two, before.length + after.length + before'.length + after'.length +
      (withPatches one two parts (splitInclusive t)).length ≤ maxLines)
    (hp : ∀ which other, Locatable which other parts (splitInclusive t)) :
    let leaves (one two : Bool) : World :=
      { w with fs := w.fs.set (w.fs.entry target) (some (.file (bytesOf (withPatches one two parts (splitInclusive t))))) }
    (pwPatch q temp one false).run w = (.exited 0, leaves true false) ∧
    (pwPatch q temp two false).run (leaves true false) = (.exited 0, leaves true true) ∧
    (pwPatch q temp two false).run w = (.exited 0, leaves false true) ∧
    (pwPatch q temp one false).run (leaves false true) = (.exited 0, leaves true true) := by
  obtain ⟨s1, s2, s3, s4, r1, r2, r3, r4, -⟩ := C145_either p p' q before after before' after' context context' hctx hctx' parts
    (splitInclusive t) (hd1 ▸ h) (hd2 ▸ h') hsz hp
  have hs := fun one two => split_withPatches one two parts t hw
  have eu : ∀ one two, bytesOf (withPatches one two parts (splitInclusive t)) =
      Str.bytes (withPatches one two parts (splitInclusive t)).flatten := fun one two => by
    rw [← bytesOf_splitInclusive, hs]
  rw [← hs false false, ← hd1] at r1
  rw [← hs true false, ← hd2] at r2
  rw [← hs false false, ← hd2] at r3
  rw [← hs false true, ← hd1] at r4
  have hnt : w.fs.entry temp ≠ w.fs.entry target := by
    intro e
    rw [e, hold] at hfree
    cases hfree
  have second : ∀ (patch : Path) (d : TextChangeDiff) (content : List UInt8) (a b : Bool) (st : Statistics) (new : List UInt8),
      w.fs.node (w.fs.entry patch) = some (.file content) → Diff.fromReader ⟨content, false⟩ = .ok (.textChange d) → d.beforePath = target →
      w.fs.entry patch ≠ w.fs.entry target →
      (applyInto q d.clumps (splitInclusive (withPatches a b parts (splitInclusive t)).flatten) false).run = (.ok st, new) →
      (pwPatch q temp patch false).run
        { w with fs := w.fs.set (w.fs.entry target) (some (.file (bytesOf (withPatches a b parts (splitInclusive t))))) } =
      (.exited 0, { w with fs := w.fs.set (w.fs.entry target) (some (.file new)) }) := by
    intro patch d content a b st new hp hc ht hne hr
    rw [eu a b]
    have := C46_normal q temp patch target false
      { w with fs := w.fs.set (w.fs.entry target) (some (.file (Str.bytes (withPatches a b parts (splitInclusive t)).flatten))) }
      (.textChange d) ⟨⟨content, false⟩, FS.contentAt_of_file (by simp [hne, hp]), hc⟩ (congrArg some ht) hf (by simp [hnt, hfree])
      (FS.contentAt_of_file (c := Str.bytes (withPatches a b parts (splitInclusive t)).flatten) (by simp)) ⟨_, _, rfl, hr⟩
    rw [this]
    simp only [FS.set_entry, FS.set_set]
  rw [eu] at hold
  exact ⟨C46_normal q temp one target false w (.textChange d) ⟨_, FS.contentAt_of_file hp1, hc1⟩ (congrArg some ht1) hf hfree
      (FS.contentAt_of_file hold) ⟨_, _, rfl, r1⟩,
    second two d' content' true false s2 _ hp2 hc2 ht2 hne2 (by rw [r2]),
    C46_normal q temp two target false w (.textChange d') ⟨_, FS.contentAt_of_file hp2, hc2⟩ (congrArg some ht2) hf hfree
      (FS.contentAt_of_file hold) ⟨_, _, rfl, r3⟩,
    second one d content false true s4 _ hp1 hc1 ht1 hne1 (by rw [r4])⟩

/-- A file with the clumps of the patch of C137 and, between them, that of another patch, which was made from a file of its own. -/
def ownedParts : List (Owned Str) :=
  [⟨letters ['a', 'N', 'b'], ⟨(1, 1), ⟨2, letters ['c', 'd', 'e']⟩, ⟨2, letters ['c', 'X', 'Y', 'e']⟩⟩, true⟩,
   ⟨[], ⟨(1, 1), ⟨0, letters ['p', 'q', 'r']⟩, ⟨0, letters ['p', 'Q', 'S', 'r']⟩⟩, false⟩,
   ⟨[], ⟨(1, 1), ⟨6, letters ['g', 'h', 'i']⟩, ⟨7, letters ['g', 'Z', 'W', 'i']⟩⟩, true⟩]

theorem owned_diff : diffClumps .debug (letters ['p', 'q', 'r']) (letters ['p', 'Q', 'S', 'r']) 1 = .ok (ownClumps false ownedParts) := by
  decide +kernel

theorem owned_locatable : ∀ which other, Locatable which other ownedParts (letters ['j', 'k']) := by
  intro which other
  cases which <;> cases other
  · exact ⟨by decide +kernel, by decide +kernel, trivial⟩
  · exact ⟨by decide +kernel, by decide +kernel, trivial⟩
  · exact ⟨by decide +kernel, by decide +kernel, by decide +kernel, trivial⟩
  · exact ⟨by decide +kernel, by decide +kernel, by decide +kernel, trivial⟩

example (q : Profile) := C145_either .debug .debug q _ _ _ _ 1 1 (by decide) (by decide) ownedParts (letters ['j', 'k'])
  (by exact woven_diff) owned_diff (by decide +kernel) owned_locatable

/-- What comes out. -/
example : withPatches true true ownedParts (letters ['j', 'k']) =
    letters ['a', 'N', 'b', 'c', 'X', 'Y', 'e', 'p', 'Q', 'S', 'r', 'g', 'Z', 'W', 'i', 'j', 'k'] := by decide +kernel

theorem owned_whole : AllWhole ownedParts := by
  intro x hx
  have key : ∀ x ∈ ownedParts,
      (∀ y ∈ x.gap, ∃ a ∈ ['a', 'N', 'b', 'c', 'd', 'e', 'X', 'Y', 'p', 'q', 'Q', 'S', 'r', 'g', 'h', 'i', 'Z', 'W'], y = ln a) ∧
      ∀ y ∈ x.clump.before.items ++ x.clump.after.items,
        ∃ a ∈ ['a', 'N', 'b', 'c', 'd', 'e', 'X', 'Y', 'p', 'q', 'Q', 'S', 'r', 'g', 'h', 'i', 'Z', 'W'], y = ln a := by
    decide +kernel
  have whole : ∀ y, (∃ a ∈ ['a', 'N', 'b', 'c', 'd', 'e', 'X', 'Y', 'p', 'q', 'Q', 'S', 'r', 'g', 'h', 'i', 'Z', 'W'], y = ln a) →
      WholeLine y := by
    rintro y ⟨a, ha, rfl⟩
    refine ⟨[a], rfl, ?_⟩
    revert a
    decide +kernel
  exact ⟨fun y hy => whole y ((key x hx).1 y hy), fun y hy => whole y ((key x hx).2 y hy)⟩

/-- A file system with a file and two patches. -/
theorem FS.ofFiles_patches (a c d : List UInt8) : let fs := FS.ofFiles [([65], a), ([67], c), ([68], d)]
    fs.entry [65] = 0 ∧ fs.entry [67] = 1 ∧ fs.entry [68] = 2 ∧ fs.entry [84] = 4 ∧ fs.node 0 = some (.file a) ∧
      fs.node 1 = some (.file c) ∧ fs.node 2 = some (.file d) ∧ fs.node 4 = none ∧ fs.contentAt [65] = some ⟨a, false⟩ ∧
      fs.contentAt [67] = some ⟨c, false⟩ ∧ fs.contentAt [68] = some ⟨d, false⟩ :=
  ⟨rfl, rfl, rfl, rfl, rfl, rfl, rfl, rfl, rfl, rfl, rfl⟩

/-- The situation: `A` is that file, `C` and `D` are the patches. -/
example (q : Profile) : ∃ w v v' u : World, (pwPatch q [84] [67] false).run w = (.exited 0, v) ∧
    (pwPatch q [84] [68] false).run v = (.exited 0, u) ∧ (pwPatch q [84] [68] false).run w = (.exited 0, v') ∧
    (pwPatch q [84] [67] false).run v' = (.exited 0, u) ∧
    w.fs.contentAt [65] = some ⟨bytesOf (letters ['a', 'N', 'b', 'c', 'd', 'e', 'p', 'q', 'r', 'g', 'h', 'i', 'j', 'k']), false⟩ ∧
    u.fs.contentAt [65] =
      some ⟨bytesOf (letters ['a', 'N', 'b', 'c', 'X', 'Y', 'e', 'p', 'Q', 'S', 'r', 'g', 'Z', 'W', 'i', 'j', 'k']), false⟩ := by
  obtain ⟨e1, e2, e3, e4, e5, e6, e7, e8, e9, e10, e11⟩ := FS.ofFiles_patches
    (bytesOf (letters ['a', 'N', 'b', 'c', 'd', 'e', 'p', 'q', 'r', 'g', 'h', 'i', 'j', 'k']))
    (Diff.textChange ⟨[65], [66], ownClumps true ownedParts⟩).fileContent
    (Diff.textChange ⟨[65], [66], ownClumps false ownedParts⟩).fileContent
  generalize FS.ofFiles [([65], _), ([67], _), ([68], _)] = fs at *
  have paths : ∀ (cs : List (DiffClump Str)), ∀ path ∈ (Diff.textChange ⟨[65], [66], cs⟩).paths, IsUtf8 path := by
    intro cs path h
    simp only [Diff.paths, List.mem_cons, List.not_mem_nil, or_false] at h
    rcases h with rfl | rfl
    · exact ⟨['A'], by decide⟩
    · exact ⟨['B'], by decide⟩
  have hd1 : HoldsDiff fs [67] (.textChange ⟨[65], [66], ownClumps true ownedParts⟩) := by
    refine holdsDiff_of_file ?_ (paths _) e10
    intro c hc
    simp [ownClumps, ownedParts] at hc
    rcases hc with rfl | rfl <;> simp [DiffClump.InRange, wordSize]
  have hd2 : HoldsDiff fs [68] (.textChange ⟨[65], [66], ownClumps false ownedParts⟩) := by
    refine holdsDiff_of_file ?_ (paths _) e11
    intro c hc
    simp [ownClumps, ownedParts] at hc
    subst hc
    simp [DiffClump.InRange, wordSize]
  obtain ⟨r1, hr1, hc1⟩ := hd1
  obtain rfl := Option.some.inj (e10.symm.trans hr1)
  obtain ⟨r2, hr2, hc2⟩ := hd2
  obtain rfl := Option.some.inj (e11.symm.trans hr2)
  have et : splitInclusive "j\nk\n".toList = letters ['j', 'k'] := by decide +kernel
  have h := C145_program .debug .debug q [84] [67] [68] [65] ⟨fs, [], []⟩ rfl ⟨[65], [66], ownClumps true ownedParts⟩
    ⟨[65], [66], ownClumps false ownedParts⟩ _ _ (by rw [e2, e6]) (by rw [e3, e7]) hc1 hc2 rfl rfl (by rw [e4, e8])
    (by rw [e1, e2]; decide) (by rw [e1, e3]; decide) _ _ _ _ 1 1 (by decide) (by decide) ownedParts "j\nk\n".toList owned_whole rfl rfl
    (by exact woven_diff) owned_diff (by rw [e1, e5, et]; rfl) (by rw [et]; decide +kernel) (by rw [et]; exact owned_locatable)
  rw [et] at h
  exact ⟨_, _, _, _, h.1, h.2.1, h.2.2.1, h.2.2.2, e9, FS.contentAt_of_file (by simp; rfl)⟩

/-- What one may expect: if both patches can be applied to the file and the clumps of one can still be recognised by a line that is
there only once after the other was applied, it can be applied then. -/
def C145_statement : Prop :=
  ∀ (p q : Profile) (before after before' after' : List Str) (context : Nat) (parts : List (Owned Str)) (last : List Str), context ≤ 255 →
    diffClumps p before after context = .ok (ownClumps true parts) → diffClumps p before' after' context = .ok (ownClumps false parts) →
    Locatable true false parts last → Locatable false false parts last →
    (∀ c ∈ ownClumps true parts, ChangesUnique (withPatches false true parts last) c) →
    (applyInto q (ownClumps true parts) (withPatches false true parts last) false).run.2 = bytesOf (withPatches true true parts last)

/-- That is not so: the other patch puts in so many lines that the first clump is no longer before the place where the second one is
expected. -/
theorem C145_refuted : ¬ C145_statement := by
  intro h
  have hx := h .debug .release _ _ (letters ['p', 'q', 'r']) (letters ['p', '1', '2', '3', '4', '5', '6', 'r']) 1
    [⟨[], ⟨(1, 1), ⟨0, letters ['p', 'q', 'r']⟩, ⟨0, letters ['p', '1', '2', '3', '4', '5', '6', 'r']⟩⟩, false⟩,
     ⟨[], ⟨(1, 1), ⟨2, letters ['c', 'd', 'e']⟩, ⟨2, letters ['c', 'X', 'Y', 'e']⟩⟩, true⟩,
     ⟨[], ⟨(1, 1), ⟨6, letters ['g', 'h', 'i']⟩, ⟨7, letters ['g', 'Z', 'W', 'i']⟩⟩, true⟩] (letters ['j', 'k']) (by decide)
    (by exact woven_diff) (by decide +kernel) ⟨by decide +kernel, by decide +kernel, by decide +kernel, trivial⟩
    ⟨by decide +kernel, by decide +kernel, trivial⟩ (by decide +kernel)
  revert hx
  decide +kernel

end PwDiff
