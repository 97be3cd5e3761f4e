import Verif.Props.Since
import Verif.Props.Again

/-! # C140: applying a patch to its own conflicts -/

namespace PwDiff

section

variable {T : Type} [Item T]

theorem Patching.failedAtMost {p : Profile} {l : List T} {k : Nat} {offset : Int} {st st' : Statistics} {cs : List (DiffClump T)}
    {out : List UInt8} {r : Outcome Statistics} (h : Patching p l k offset st cs out r) (hr : r = .ok st') :
    st'.failed ≤ st.failed + cs.length := by
  induction h with
  | finish => cases hr; exact Nat.le_add_right _ _
  | overrun | crash | applyPanic => cases hr
  | apply _ _ _ ih =>
    have := ih hr
    simp only [Decision.count, List.length_cons] at this ⊢
    split at this <;> simp only at this <;> omega
  | already _ _ ih =>
    have := ih hr
    simp only [Decision.count, List.length_cons] at this ⊢
    split at this <;> simp only at this <;> omega
  | failed _ _ ih =>
    have := ih hr
    simp only [Decision.count, List.length_cons] at this ⊢
    omega

/-- If all clumps have failed, their conflicts stand before the rest of the file. -/
theorem Patching.allFailed {p : Profile} {l : List T} {k : Nat} {offset : Int} {st st' : Statistics} {cs : List (DiffClump T)}
    {out : List UInt8} {r : Outcome Statistics} (h : Patching p l k offset st cs out r) (hr : r = .ok st')
    (hall : st.failed + cs.length ≤ st'.failed) :
    out = cs.flatMap (fun c => conflict c.before.items c.after.items) ++ bytesOf (cut l k l.length) := by
  induction h with
  | finish => rfl
  | overrun | crash | applyPanic => cases hr
  | apply _ _ h _ =>
    have := h.failedAtMost hr
    simp only [Decision.count, List.length_cons] at this hall
    split at this <;> simp only at this <;> omega
  | already _ h _ =>
    have := h.failedAtMost hr
    simp only [Decision.count, List.length_cons] at this hall
    split at this <;> simp only at this <;> omega
  | failed _ _ ih =>
    rw [ih hr (by simp only [Decision.count, List.length_cons] at hall ⊢; omega)]
    simp

end

/-- The lines of the conflict written for a clump, with other lines in place of the old ones. -/
def conflictLines (old new : List Str) : List Str := marker '<' :: old ++ marker '=' :: new ++ [marker '>']

/-- The file after all clumps have failed: the conflicts, then the file as it was. -/
def allFailed (cs : List (DiffClump Str)) (l : List Str) : List Str := cs.flatMap (fun c => conflictLines c.before.items c.after.items) ++ l

/-- The same with the new lines of every clump also in place of the old ones. -/
def allTwice (cs : List (DiffClump Str)) (l : List Str) : List Str := cs.flatMap (fun c => conflictLines c.after.items c.after.items) ++ l

/-- What stands between the old lines of the clumps in that file; `lead` are the lines since the last ones. -/
def blocks : List Str → List (DiffClump Str) → List (List Str × DiffClump Str)
  | _, [] => []
  | lead, c :: cs => (lead ++ [marker '<'], c) :: blocks (marker '=' :: c.after.items ++ [marker '>']) cs

/-- What stands after the old lines of the last clump. -/
def blocksEnd : List Str → List (DiffClump Str) → List Str → List Str
  | lead, [], l => lead ++ l
  | _, c :: cs, l => blocksEnd (marker '=' :: c.after.items ++ [marker '>']) cs l

theorem blocks_clumps (lead : List Str) (cs : List (DiffClump Str)) : (blocks lead cs).map (·.2) = cs := by
  induction cs generalizing lead with
  | nil => rfl
  | cons c cs ih => simp [blocks, ih]

theorem woven_blocks (side : DiffClump Str → Snippet Str) (lead : List Str) (cs : List (DiffClump Str)) (l : List Str) :
    woven side (blocks lead cs) (blocksEnd lead cs l) =
      lead ++ cs.flatMap (fun c => conflictLines (side c).items c.after.items) ++ l := by
  induction cs generalizing lead with
  | nil => simp [blocks, blocksEnd, woven]
  | cons c cs ih => simp [blocks, blocksEnd, woven, ih, conflictLines]

theorem bytesOf_allFailed (cs : List (DiffClump Str)) (l : List Str) :
    bytesOf (allFailed cs l) = cs.flatMap (fun c => conflict c.before.items c.after.items) ++ bytesOf l := by
  induction cs with
  | nil => rfl
  | cons c cs ih =>
    have h := bytesOf_failedLines c (allFailed cs l)
    rw [ih] at h
    rw [List.flatMap_cons, List.append_assoc, ← h]
    congr 1
    simp [allFailed, failedLines, conflictLines]

theorem split_allFailed (cs : List (DiffClump Str)) (s : Str)
    (hl : ∀ c ∈ cs, ∀ x ∈ c.before.items ++ c.after.items, WholeLine x) :
    splitInclusive (allFailed cs (splitInclusive s)).flatten = allFailed cs (splitInclusive s) := by
  have hmark : ∀ x : Char, x = '<' ∨ x = '=' ∨ x = '>' → WholeLine (marker x) := by
    rintro x (rfl | rfl | rfl) <;> exact ⟨_, rfl, by decide⟩
  have h0 := splitInclusive_flatten (ls := cs.flatMap (fun c => conflictLines c.before.items c.after.items)) (by
    intro x hx
    obtain ⟨c, hc, hx⟩ := List.mem_flatMap.1 hx
    simp only [conflictLines, List.cons_append, List.mem_cons, List.mem_append, List.not_mem_nil, or_false] at hx
    rcases hx with rfl | (hx | rfl | hx) | rfl
    · exact hmark _ (.inl rfl)
    · exact hl c hc x (by simp [hx])
    · exact hmark _ (.inr (.inl rfl))
    · exact hl c hc x (by simp [hx])
    · exact hmark _ (.inr (.inr rfl))) s
  unfold allFailed
  rw [List.flatten_append, flatten_splitInclusive, h0]

/-- All clumps of a patch have failed on a text. Each removes a line that is not in the text and only once in the patch. Then the
patch, applied once more, is applied to its own conflicts (the new lines stand twice in each of them, and the conflicts remain),
if and only if each conflict that stands further down than expected, counting from the one before, stands before the limit of the
search. -/
theorem C140_exact (p q : Profile) (before after : List Str) (context : Nat) (hctx : context ≤ 255) (cs : List (DiffClump Str))
    (h : diffClumps p before after context = .ok cs) (hl : ∀ c ∈ cs, ∀ x ∈ c.before.items ++ c.after.items, WholeLine x)
    (s : Str) (hsz : before.length + after.length + (allFailed cs (splitInclusive s)).length ≤ maxLines)
    (st : Statistics) (out : List UInt8) (hrun : (applyInto q cs (splitInclusive s) false).run = (.ok st, out))
    (hall : st.failed = cs.length) (hone : ∀ c ∈ cs, ChangesUnique (allFailed cs (splitInclusive s)) c) :
    ∃ u : Str, out = u.bytes ∧ splitInclusive u = allFailed cs (splitInclusive s) ∧
      ((applyInto q cs (splitInclusive u) false).run =
        (.ok { fuzzy := shifts DiffClump.before 0 0 (blocks [] cs), clean := cs.length - shifts DiffClump.before 0 0 (blocks [] cs) },
          bytesOf (allTwice cs (splitInclusive s))) ↔
        WithinSearch DiffClump.before (allFailed cs (splitInclusive s)) 0 0 (blocks [] cs)) := by
  have hlines := split_allFailed cs s hl
  refine ⟨(allFailed cs (splitInclusive s)).flatten, ?_, hlines, ?_⟩
  · have hd := (diffClumps_full hctx h).1
    have hw := hd.wellFormed (by simp only [maxLines] at *; omega) (by simp only [maxLines] at *; omega)
    have hwt := hd.weight
    have hlen : (splitInclusive s).length ≤ (allFailed cs (splitInclusive s)).length := by simp [allFailed]
    simp only [maxLines] at hsz
    rw [C57_refines q _ cs hw (by simp only [sizeLimit]; omega)] at hrun
    rw [hrun.allFailed rfl (by rw [hall]; simp), cut_full, ← bytesOf_allFailed]
    exact flatMap_bytes _
  · rw [hlines]
    have e1 := woven_blocks DiffClump.before [] cs (splitInclusive s)
    have e2 := woven_blocks DiffClump.after [] cs (splitInclusive s)
    have e3 := blocks_clumps [] cs
    have e4 : (blocks [] cs).length = cs.length := by rw [← List.length_map (f := (·.2)), e3]
    rw [List.nil_append] at e1 e2
    have := (C137_exact p q before after context hctx (blocks [] cs) (blocksEnd [] cs (splitInclusive s)) (by rw [e3]; exact h)
      (by rw [e1]; exact hsz) (by
        refine onlyThere_of_once (last := blocksEnd [] cs (splitInclusive s)) (front := []) rfl rfl ?_
        intro x hx
        rw [e1]
        exact hone x.2 (by rw [← e3]; exact List.mem_map_of_mem hx))).1
    rw [e1, e2, e3, e4] at this
    exact this

/-- For the program: it is run twice, both times ends with status 0, and leaves the file with all conflicts, in
which the old lines are replaced by the new ones. -/
theorem C140_program (p q : Profile) (temp patch target : Path) (w : World) (hf : w.faults = []) (d : TextChangeDiff) (content : List UInt8)
    (hp : w.fs.node (w.fs.entry patch) = some (.file content)) (hc : Diff.fromReader ⟨content, false⟩ = .ok (.textChange d))
    (htg : d.beforePath = target) (hfree : w.fs.node (w.fs.entry temp) = none) (hne : w.fs.entry patch ≠ w.fs.entry target)
    (before after : List Str) (context : Nat) (hctx : context ≤ 255) (h : diffClumps p before after context = .ok d.clumps)
    (hl : ∀ c ∈ d.clumps, ∀ x ∈ c.before.items ++ c.after.items, WholeLine x)
    (s : Str) (hold : w.fs.node (w.fs.entry target) = some (.file s.bytes))
    (hsz : before.length + after.length + (allFailed d.clumps (splitInclusive s)).length ≤ maxLines)
    (hall : (applyInto q d.clumps (splitInclusive s) false).run.1 = .ok { failed := d.clumps.length })
    (hone : ∀ c ∈ d.clumps, ChangesUnique (allFailed d.clumps (splitInclusive s)) c)
    (hr : WithinSearch DiffClump.before (allFailed d.clumps (splitInclusive s)) 0 0 (blocks [] d.clumps)) :
    let leaves (ls : List Str) : World := { w with fs := w.fs.set (w.fs.entry target) (some (.file (bytesOf ls))) }
    (pwPatch q temp patch false).run w = (.exited 0, leaves (allFailed d.clumps (splitInclusive s))) ∧
    (pwPatch q temp patch false).run (leaves (allFailed d.clumps (splitInclusive s))) =
      (.exited 0, leaves (allTwice d.clumps (splitInclusive s))) := by
  subst htg
  obtain ⟨u, e1, e2, e3⟩ := C140_exact p q before after context hctx d.clumps h hl s hsz _ _ (Prod.ext hall rfl) rfl hone
  have eu : bytesOf (allFailed d.clumps (splitInclusive s)) = u.bytes := by rw [← e2, bytesOf_splitInclusive]
  have hnt : w.fs.entry temp ≠ w.fs.entry d.beforePath := by
    intro e
    rw [e, hold] at hfree
    cases hfree
  refine ⟨?_, ?_⟩
  · exact C46_normal q temp patch d.beforePath false w (.textChange d) ⟨_, FS.contentAt_of_file hp, hc⟩ rfl hf hfree
      (FS.contentAt_of_file hold) ⟨s, _, rfl, Prod.ext hall (by rw [eu, ← e1])⟩
  · simp only [eu]
    have := C46_normal q temp patch d.beforePath false
      { w with fs := w.fs.set (w.fs.entry d.beforePath) (some (.file u.bytes)) } (.textChange d)
      ⟨⟨content, false⟩, FS.contentAt_of_file (by simp [hne, hp]), hc⟩ rfl hf (by simp [hnt, hfree])
      (FS.contentAt_of_file (c := u.bytes) (by simp)) ⟨u, _, rfl, e3.2 hr⟩
    rw [this]
    simp only [FS.set_entry, FS.set_set]

/-- The patch of C137. -/
def twiceClumps : List (DiffClump Str) :=
  [⟨(1, 1), ⟨2, letters ['c', 'd', 'e']⟩, ⟨2, letters ['c', 'X', 'Y', 'e']⟩⟩,
   ⟨(1, 1), ⟨6, letters ['g', 'h', 'i']⟩, ⟨7, letters ['g', 'Z', 'W', 'i']⟩⟩]

theorem twiceClumps_whole : ∀ c ∈ twiceClumps, ∀ x ∈ c.before.items ++ c.after.items, WholeLine x := by
  intro c hc x hx
  have : ∀ c ∈ twiceClumps, ∀ x ∈ c.before.items ++ c.after.items, ∃ a ∈ ['c', 'd', 'e', 'X', 'Y', 'g', 'h', 'i', 'Z', 'W'], x = ln a := by
    decide +kernel
  obtain ⟨a, ha, rfl⟩ := this c hc x hx
  refine ⟨[a], rfl, ?_⟩
  clear hx
  revert a
  decide +kernel

theorem twiceClumps_fail (q : Profile) :
    (applyInto q twiceClumps (splitInclusive "p\nq\nr\ns\n".toList) false).run.1 = .ok { failed := 2 } := by
  cases q <;> decide +kernel

theorem twiceClumps_within : WithinSearch DiffClump.before (allFailed twiceClumps (splitInclusive "p\nq\nr\ns\n".toList)) 0 0
    (blocks [] twiceClumps) := ⟨by decide +kernel, by decide +kernel, trivial⟩

example (q : Profile) := C140_exact .debug q _ _ 1 (by decide) twiceClumps woven_diff twiceClumps_whole "p\nq\nr\ns\n".toList
  (by decide +kernel) _ _ (Prod.ext (twiceClumps_fail q) rfl) rfl (by decide +kernel)

/-- What is in the file then. -/
example : bytesOf (allTwice twiceClumps (splitInclusive "p\nq\nr\ns\n".toList)) = Str.bytes
    "<<<<<<<\nc\nX\nY\ne\n=======\nc\nX\nY\ne\n>>>>>>>\n<<<<<<<\ng\nZ\nW\ni\n=======\ng\nZ\nW\ni\n>>>>>>>\np\nq\nr\ns\n".toList := by
  decide +kernel

example (q : Profile) : ∃ w w1 w2 : World, (pwPatch q [84] [67] false).run w = (.exited 0, w1) ∧
    (pwPatch q [84] [67] false).run w1 = (.exited 0, w2) ∧
    w.fs.contentAt [65] = some ⟨Str.bytes "p\nq\nr\ns\n".toList, false⟩ ∧
    w2.fs.contentAt [65] = some ⟨bytesOf (allTwice twiceClumps (splitInclusive "p\nq\nr\ns\n".toList)), false⟩ := by
  obtain ⟨e1, e2, e3, e3', e4, e5, e6, e6', e7, e8⟩ := FS.ofFiles_two (Str.bytes "p\nq\nr\ns\n".toList)
    (Diff.textChange ⟨[65], [66], twiceClumps⟩).fileContent
  generalize FS.ofFiles [([65], _), ([67], _)] = fs at *
  have hd : HoldsDiff fs [67] (.textChange ⟨[65], [66], twiceClumps⟩) := by
    refine holdsDiff_of_file ?_ ?_ e8
    · intro c hc
      simp only [twiceClumps, List.mem_cons, List.not_mem_nil, or_false] at hc
      rcases hc with rfl | rfl <;> simp [DiffClump.InRange, wordSize]
    · intro path h
      simp only [Diff.paths, List.mem_cons, List.not_mem_nil, or_false] at h
      rcases h with rfl | rfl
      · exact ⟨['A'], by decide⟩
      · exact ⟨['B'], by decide⟩
  obtain ⟨r, hr1, hr2⟩ := hd
  obtain rfl := Option.some.inj (e8.symm.trans hr1)
  have h := C140_program .debug q [84] [67] [65] ⟨fs, [], []⟩ rfl ⟨[65], [66], twiceClumps⟩ _ (by rw [e2, e5]) hr2 rfl
    (by rw [e3, e6']) (by rw [e1, e2]; decide) _ _ 1 (by decide) woven_diff twiceClumps_whole "p\nq\nr\ns\n".toList (by rw [e1, e4])
    (by decide +kernel) (twiceClumps_fail q) (by decide +kernel) twiceClumps_within
  exact ⟨_, _, _, h.1, h.2, e7, FS.contentAt_of_file (by simp)⟩

/-- The patch of `C139_refuted`. -/
def threeClumps : List (DiffClump Str) :=
  [⟨(1, 1), ⟨0, letters ['a', 'b', 'c']⟩, ⟨0, letters ['a', 'U', 'V', 'W', 'X', 'Y', 'Z', 'c']⟩⟩,
   ⟨(1, 1), ⟨3, letters ['d', 'e', 'f']⟩, ⟨8, letters ['d', 'E', 'G', 'f']⟩⟩,
   ⟨(1, 1), ⟨6, letters ['g', 'h', 'i']⟩, ⟨12, letters ['g', 'H', 'K', 'i']⟩⟩]

/-- Here the second conflict stands too far down. -/
example : ¬ WithinSearch DiffClump.before (allFailed threeClumps (letters ['p'])) 0 0 (blocks [] threeClumps) ∧
    (applyInto .release threeClumps (allFailed threeClumps (letters ['p'])) false).run.1 ≠ .ok { fuzzy := 3 } :=
  ⟨fun h => absurd h.2.1 (by decide +kernel), by decide +kernel⟩

end PwDiff
