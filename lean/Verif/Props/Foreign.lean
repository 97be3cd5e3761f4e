import Verif.Props.Express
import Verif.Props.Fuzzy

/-! # C126: a patch and a file that have nothing in common -/

namespace PwDiff

variable {T : Type}

/-- File and patch have no line (or byte) in common, neither with the old nor with the new side of a clump. -/
def Foreign (l : List T) (cs : List (DiffClump T)) : Prop :=
  ∀ c ∈ cs, ∀ x ∈ l, x ∉ c.before.items ∧ x ∉ c.after.items

/-- Both sides of every clump have lines. -/
def NoSideEmpty (cs : List (DiffClump T)) : Prop := ∀ c ∈ cs, c.before.items ≠ [] ∧ c.after.items ≠ []

theorem StandsAt.mem {ls l : List T} {pos : Int} (h : StandsAt ls l pos) {x : T} (hx : x ∈ ls) : x ∈ l := by
  obtain ⟨pre, post, rfl, -⟩ := h
  simp [hx]

/-- Fuzz below the longer context length leaves a line. -/
theorem trim_ne_nil {ls : List T} {ctx : Nat × Nat} {k : Nat} (hne : ls ≠ []) (hctx : ctx.1 + ctx.2 ≤ ls.length) (hk : k < max ctx.1 ctx.2) :
    trim (redn ctx k) ls ≠ [] := by
  intro h
  have hl := List.length_pos_iff.2 hne
  have := congrArg List.length h
  simp only [trim, redn, List.length_drop, List.length_take, List.length_nil] at this
  omega

theorem nowhere_of_foreign {l : List T} {ctx : Nat × Nat} {side : Snippet T} (hne : side.items ≠ []) (hctx : ctx.1 + ctx.2 ≤ side.items.length)
    (hd : ∀ x ∈ l, x ∉ side.items) : NowhereFits l ctx side := by
  have no : ∀ ls : List T, ls ≠ [] → (∀ x ∈ ls, x ∈ side.items) → ∀ pos, ¬ StandsAt ls l pos := by
    intro ls h1 h2 pos h
    obtain ⟨x, hx⟩ := List.exists_mem_of_ne_nil ls h1
    exact hd x (h.mem hx) (h2 x hx)
  intro pos
  refine ⟨no _ hne (fun x hx => hx) _, fun k _ hk => no _ (trim_ne_nil hne hctx hk) (fun x hx => ?_) _⟩
  exact List.mem_of_mem_take (List.mem_of_mem_drop hx)

theorem Foreign.nowhere {l : List T} {cs : List (DiffClump T)} (h : Foreign l cs) (hne : NoSideEmpty cs) (hw : ∀ c ∈ cs, c.WellFormed) :
    ∀ c ∈ cs, NowhereFits l c.contextLengths c.before ∧ NowhereFits l c.contextLengths c.after := fun c hc =>
  ⟨nowhere_of_foreign (hne c hc).1 (hw c hc).ctxBefore fun x hx => (h c hc x hx).1,
   nowhere_of_foreign (hne c hc).2 (hw c hc).ctxAfter fun x hx => (h c hc x hx).2⟩

/-- In a debug build, if nothing fits and a search limit underflows, there is a panic. -/
theorem patching_crashed [Item T] {l : List T} {k : Nat} {cs : List (DiffClump T)} {st : Statistics}
    (hno : ∀ c ∈ cs, NowhereFits l c.contextLengths c.before ∧ NowhereFits l c.contextLengths c.after)
    (hroom : ¬ (Roomy l DiffClump.before cs ∧ Roomy l DiffClump.after cs)) :
    ∃ out, Patching .debug l k 0 st cs out .panic := by
  induction cs generalizing st with
  | nil => exact absurd ⟨trivial, trivial⟩ hroom
  | cons c cs ih =>
    have ho := (hno c (by simp)).1
    have hn := (hno c (by simp)).2
    by_cases h1 : Underflow l c.contextLengths c.before (cs.head?.map DiffClump.before) 0
    · exact ⟨_, .crash ⟨rfl, ho _, .inl h1⟩⟩
    by_cases h2 : Underflow l c.contextLengths c.after (cs.head?.map DiffClump.after) 0
    · exact ⟨_, .crash ⟨rfl, ho _, .inr ⟨h1, fun d _ => ho _, hn _, h2⟩⟩⟩
    obtain ⟨out, h⟩ := ih (st := Decision.count st .failed) (fun c hc => hno c (by simp [hc])) (fun h => hroom ⟨⟨h1, h.1⟩, ⟨h2, h.2⟩⟩)
    exact ⟨_, .failed ⟨ho _, fun h => h1 h.2, fun d _ => ho _, hn _, fun h => h2 h.2, fun d _ => hn _⟩ h⟩

variable [DecidableEq T] [Item T] [LawfulItem T]

/-- Together with `C36_partial`: in a debug build the clumps of a patch that fits nowhere are all marked as conflicts exactly if no
search limit underflows; otherwise the program panics. -/
theorem C36_exact (cs : List (DiffClump T)) (l : List T) (hw : ∀ c ∈ cs, c.WellFormed) (hsz : l.length + weight cs < sizeLimit)
    (hno : ∀ c ∈ cs, NowhereFits l c.contextLengths c.before ∧ NowhereFits l c.contextLengths c.after) :
    let roomy := Roomy l DiffClump.before cs ∧ Roomy l DiffClump.after cs
    (roomy → (applyInto .debug cs l false).run.1 = .ok { failed := cs.length }) ∧ (¬ roomy → (applyInto .debug cs l false).run.1 = .panic) := by
  refine ⟨fun h => ?_, fun h => ?_⟩
  · rw [C36_partial .debug cs l hw hsz hno (fun _ => h)]
  · obtain ⟨out, hp⟩ := patching_crashed (k := 0) (st := {}) hno h
    rw [(C57_refines .debug l cs hw hsz _ _).2 hp]

/-- A file with one line is too short for a clump that changes two. -/
example : ¬ Roomy (letters ['x']) DiffClump.before [(⟨(0, 0), ⟨0, letters ['a', 'b']⟩, ⟨0, letters ['c']⟩⟩ : DiffClump Str)] ∧
    (applyInto .debug [(⟨(0, 0), ⟨0, letters ['a', 'b']⟩, ⟨0, letters ['c']⟩⟩ : DiffClump Str)] (letters ['x']) false).run.1 = .panic :=
  ⟨fun h => h.1 (by simp [Underflow, searchRoom, coreLen, letters]), by decide +kernel⟩

theorem bytesOf_splitInclusive (s : Str) : bytesOf (splitInclusive s) = s.bytes :=
  (flatMap_bytes _).trans (by rw [flatten_splitInclusive])

/-- A text patch with which the file has no line in common: no clump is applied, all are written as conflicts before the text, which is
kept whole.  (In a debug build the file must not be too short, see `C36_exact`.) -/
theorem C126_text (p : Profile) (cs : List (DiffClump T)) (l : List T) (hw : ∀ c ∈ cs, c.WellFormed) (hsz : l.length + weight cs < sizeLimit)
    (hne : NoSideEmpty cs) (hf : Foreign l cs) (hroom : p = .debug → Roomy l DiffClump.before cs ∧ Roomy l DiffClump.after cs) :
    (applyInto p cs l false).run =
      (.ok { failed := cs.length }, cs.flatMap (fun c => conflict c.before.items c.after.items) ++ bytesOf l) :=
  C36_partial p cs l hw hsz (hf.nowhere hne hw) hroom

/-- In particular if the ends of the lines have been changed: if every line of the file has a carriage return and no line of the
patch, then nothing of the patch is applied. -/
theorem C126_lineEnds (p : Profile) (cs : List (DiffClump Str)) (s : Str) (hw : ∀ c ∈ cs, c.WellFormed)
    (hsz : (splitInclusive s).length + weight cs < sizeLimit) (hne : NoSideEmpty cs)
    (hs : ∀ l ∈ splitInclusive s, '\r' ∈ l) (hc : ∀ c ∈ cs, ∀ l ∈ c.before.items ++ c.after.items, '\r' ∉ l)
    (hroom : p = .debug → Roomy (splitInclusive s) DiffClump.before cs ∧ Roomy (splitInclusive s) DiffClump.after cs) :
    (applyInto p cs (splitInclusive s) false).run =
      (.ok { failed := cs.length }, cs.flatMap (fun c => conflict c.before.items c.after.items) ++ s.bytes) := by
  rw [C126_text p cs _ hw hsz hne (fun c h x hx => ⟨fun h1 => hc c h x (by simp [h1]) (hs x hx), fun h1 => hc c h x (by simp [h1]) (hs x hx)⟩) hroom,
    bytesOf_splitInclusive]

/-- A byte patch with which the file has no byte in common leaves it as it is. -/
theorem C126_bytes (p : Profile) (cs : List (DiffClump UInt8)) (l : List UInt8) (hsz : l.length + weight cs < wordSize)
    (hne : NoSideEmpty cs) (hf : Foreign l cs) : (byteApplyInto p cs l false).run = (.ok (), l) := by
  rw [C60_refines p l cs hsz]
  have no : ∀ s : Snippet UInt8, s.items ≠ [] → (∀ x ∈ l, x ∉ s.items) → ¬ FoundIn l s := by
    rintro s h1 h2 ⟨-, h⟩
    obtain ⟨x, hx⟩ := List.exists_mem_of_ne_nil _ h1
    exact h2 x (h.mem hx) hx
  clear hsz
  induction cs with
  | nil => exact .finish (Nat.zero_le _)
  | cons c cs ih =>
    refine .skip (no _ (hne c (by simp)).1 fun x hx => (hf c (by simp) x hx).1) (no _ (hne c (by simp)).2 fun x hx => (hf c (by simp) x hx).2)
      (ih (fun c hc => hne c (by simp [hc])) (fun c hc => hf c (by simp [hc])))

/-- For the program: the exit status is 0 all the same, and the conflicts are written to the file. -/
theorem C126_program (p : Profile) (temp patch target : Path) (w : World) (hf : w.faults = []) (d : TextChangeDiff)
    (hp : HoldsDiff w.fs patch (.textChange d)) (ht : d.beforePath = target) (hfree : w.fs.node (w.fs.entry temp) = none) (s : Str)
    (hold : w.fs.contentAt target = some ⟨s.bytes, false⟩) (hw : ∀ c ∈ d.clumps, c.WellFormed)
    (hsz : (splitInclusive s).length + weight d.clumps < sizeLimit) (hne : NoSideEmpty d.clumps) (hfor : Foreign (splitInclusive s) d.clumps)
    (hroom : p = .debug → Roomy (splitInclusive s) DiffClump.before d.clumps ∧ Roomy (splitInclusive s) DiffClump.after d.clumps) :
    (pwPatch p temp patch false).run w = (.exited 0, 
      { w with fs := w.fs.set (w.fs.entry target) (some (.file (d.clumps.flatMap (fun c => conflict c.before.items c.after.items) ++ s.bytes))) }) := by
  subst ht
  refine C46_normal p temp patch d.beforePath false w (.textChange d) hp rfl hf hfree hold ⟨s, { failed := d.clumps.length }, rfl, ?_⟩
  rw [C126_text p _ _ hw hsz hne hfor hroom, bytesOf_splitInclusive]

/-- Two clumps, the first with context. -/
def foreignClumps : List (DiffClump Str) :=
  [⟨(1, 1), ⟨0, letters ['a', 'b', 'c']⟩, ⟨0, letters ['a', 'B', 'c']⟩⟩, ⟨(0, 0), ⟨5, letters ['f']⟩, ⟨5, letters ['g', 'h']⟩⟩]

theorem foreignClumps_wellFormed : ∀ c ∈ foreignClumps, c.WellFormed := by
  intro c hc
  simp only [foreignClumps, List.mem_cons, List.not_mem_nil, or_false] at hc
  rcases hc with rfl | rfl <;> exact ⟨by decide, by decide, by decide, by decide⟩

/-- The situation of `C126_lineEnds` (hence of `C126_text`), and what becomes of the file. -/
example : (∀ c ∈ foreignClumps, c.WellFormed) ∧ NoSideEmpty foreignClumps ∧ Foreign (splitInclusive "a\r\nb\r\nc\r\n".toList) foreignClumps ∧
    (∀ l ∈ splitInclusive "a\r\nb\r\nc\r\n".toList, '\r' ∈ l) ∧
    (∀ c ∈ foreignClumps, ∀ l ∈ c.before.items ++ c.after.items, '\r' ∉ l) ∧
    (applyInto .release foreignClumps (splitInclusive "a\r\nb\r\nc\r\n".toList) false).run = (.ok { failed := 2 },
      Str.bytes "<<<<<<<\na\nb\nc\n=======\na\nB\nc\n>>>>>>>\n<<<<<<<\nf\n=======\ng\nh\n>>>>>>>\na\r\nb\r\nc\r\n".toList) :=
  ⟨foreignClumps_wellFormed, by unfold NoSideEmpty; decide +kernel, by unfold Foreign; decide +kernel, by decide +kernel, by decide +kernel, by decide +kernel⟩
example := C126_lineEnds .release foreignClumps "a\r\nb\r\nc\r\n".toList foreignClumps_wellFormed (by decide +kernel)
  (by unfold NoSideEmpty; decide +kernel) (by decide +kernel) (by decide +kernel) (fun h => nomatch h)
/-- That no side is empty is needed: an insertion without context is made in any file that is long enough. -/
example : Foreign (letters ['x', 'y']) [(⟨(0, 0), ⟨1, []⟩, ⟨1, letters ['a']⟩⟩ : DiffClump Str)] ∧
    (applyInto .debug [(⟨(0, 0), ⟨1, []⟩, ⟨1, letters ['a']⟩⟩ : DiffClump Str)] (letters ['x', 'y']) false).run =
      (.ok { clean := 1 }, bytesOf (letters ['x', 'a', 'y'])) :=
  ⟨by unfold Foreign; decide +kernel, by decide +kernel⟩
/-- Bytes. -/
example : NoSideEmpty [(⟨(1, 0), ⟨0, [1, 2]⟩, ⟨0, [1, 3]⟩⟩ : DiffClump UInt8)] ∧
    Foreign [7, 8, 9] [(⟨(1, 0), ⟨0, [1, 2]⟩, ⟨0, [1, 3]⟩⟩ : DiffClump UInt8)] ∧
    (byteApplyInto .debug [⟨(1, 0), ⟨0, [1, 2]⟩, ⟨0, [1, 3]⟩⟩] [7, 8, 9] false).run = (.ok (), [7, 8, 9]) :=
  ⟨by unfold NoSideEmpty; decide +kernel, by unfold Foreign; decide +kernel, by decide +kernel⟩

/-- The situation of `C126_program`: a file system in which `C` holds such a patch to `A`. -/
example : ∃ w : World, w.faults = [] ∧ w.fs.contentAt [65] = some ⟨Str.bytes "a\r\nb\r\nc\r\n".toList, false⟩ ∧
    HoldsDiff w.fs [67] (.textChange ⟨[65], [66], foreignClumps⟩) ∧ w.fs.node (w.fs.entry [84]) = none := by
  obtain ⟨e1, e2, e3, e3', e4, e5, e6, e6', e7, e8⟩ := FS.ofFiles_two (Str.bytes "a\r\nb\r\nc\r\n".toList)
    (Diff.textChange ⟨[65], [66], foreignClumps⟩).fileContent
  generalize FS.ofFiles [([65], _), ([67], _)] = fs at *
  refine ⟨⟨fs, [], []⟩, rfl, e7, holdsDiff_of_file ?_ ?_ e8, by rw [e3, e6']⟩
  · intro c hc
    simp only [foreignClumps, List.mem_cons, List.not_mem_nil, or_false] at hc
    rcases hc with rfl | rfl <;> simp [DiffClump.InRange, wordSize]
  · intro path h
    simp only [Diff.paths, List.mem_cons, List.not_mem_nil, or_false] at h
    rcases h with rfl | rfl
    · exact ⟨['A'], by decide⟩
    · exact ⟨['B'], by decide⟩

/-! ## C34 for the program -/

/-- Where `pw_patch` finds the patched file already there (and C34 holds), it ends with status 0 and the file system is as
before. -/
theorem C34_program (p q : Profile) (temp patch : Path) (w : World) (hf : w.faults = []) (d : TextChangeDiff) (before t : Str)
    (context : Nat) (hctx : context ≤ 255) (hb : (splitInclusive before).length ≤ maxLines) (ha : (splitInclusive t).length ≤ maxLines)
    (h : diffClumps p (splitInclusive before) (splitInclusive t) context = .ok d.clumps) (hp : HoldsDiff w.fs patch (.textChange d))
    (hfree : w.fs.node (w.fs.entry temp) = none) (hold : w.fs.node (w.fs.entry d.beforePath) = some (.file t.bytes))
    (hno : Unfound q (splitInclusive t) 0 d.clumps) : (pwPatch q temp patch false).run w = (.exited 0, w) := by
  have := C46_normal q temp patch d.beforePath false w (.textChange d) hp rfl hf hfree (FS.contentAt_of_file hold) (new := t.bytes)
    ⟨t, { alreadyApplied := d.clumps.length }, rfl, by
      rw [((C34_exact p q _ _ context hctx hb ha _ h).1).2 hno, bytesOf_splitInclusive]⟩
  rw [this, FS.set_same w.fs hold]

/-- A file system in which `A` holds the patched text and `C` the patch. -/
example : ∃ w : World, (pwPatch .release [84] [67] false).run w = (.exited 0, w) := by
  obtain ⟨e1, e2, e3, e3', e4, e5, e6, e6', e7, e8⟩ := FS.ofFiles_two (Str.bytes "p\nq\nr\ns\nt\np\nX\nq\nu\n".toList)
    (Diff.textChange ⟨[65], [66], movedClumps⟩).fileContent
  generalize FS.ofFiles [([65], _), ([67], _)] = fs at *
  refine ⟨⟨fs, [], []⟩, C34_program .debug .release [84] [67] ⟨fs, [], []⟩ rfl ⟨[65], [66], movedClumps⟩ "p\nX\nq\nr\ns\nt\nu\n".toList
    "p\nq\nr\ns\nt\np\nX\nq\nu\n".toList 1 (by decide) (by decide +kernel) (by decide +kernel) (by decide +kernel)
    (holdsDiff_of_file ?_ ?_ e8) (by rw [e3, e6']) ?_ ?_⟩
  · intro c hc
    simp only [movedClumps, List.mem_cons, List.not_mem_nil, or_false] at hc
    rcases hc with rfl | rfl <;> simp [DiffClump.InRange, wordSize]
  · intro path h
    simp only [Diff.paths, List.mem_cons, List.not_mem_nil, or_false] at h
    rcases h with rfl | rfl
    · exact ⟨['A'], by decide⟩
    · exact ⟨['B'], by decide⟩
  · show fs.node (fs.entry [65]) = _
    rw [e1, e4]
  · exact (C34_exact .debug .release (letters ['p', 'X', 'q', 'r', 's', 't', 'u']) _ 1 (by decide) (by decide) (by decide) movedClumps
      (by decide +kernel)).1.1 (by decide +kernel)

example := C126_bytes .debug [⟨(1, 0), ⟨0, [1, 2]⟩, ⟨0, [1, 3]⟩⟩] [7, 8, 9] (by decide) (by unfold NoSideEmpty; decide +kernel)
  (by unfold Foreign; decide +kernel)
example := C126_text .release foreignClumps (splitInclusive "a\r\nb\r\nc\r\n".toList) foreignClumps_wellFormed (by decide +kernel)
  (by unfold NoSideEmpty; decide +kernel) (by unfold Foreign; decide +kernel) nofun

end PwDiff
