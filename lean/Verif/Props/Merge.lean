import Verif.Props.Either
import Verif.Props.Independent

/-! # C147: two versions of a file merged by patches, either way -/

namespace PwDiff

section

variable {T : Type}

/-- The clumps stand where their patches expect them. -/
def InBase : Nat → List (Owned T) → Prop
  | _, [] => True
  | pos, x :: parts => x.clump.before.start = pos + x.gap.length ∧ InBase (pos + x.gap.length + x.clump.before.items.length) parts

theorem cut_stands {l items : List T} {start : Nat} (h : StandsAt items l start) : cut l start (start + items.length) = items := by
  obtain ⟨pre, post, rfl, e⟩ := h
  have : pre.length = start := by omega
  subst this
  simp [cut]

theorem merge_step {base : List T} {k : Nat} {c : DiffClump T} {cs cs' : List (DiffClump T)} (h : StandInOrder base 0 k (c :: cs))
    (h' : StandInOrder base 0 k cs') (hc : ∀ c' ∈ cs', c.before.start + c.before.items.length ≤ c'.before.start) :
    k ≤ c.before.start ∧ c.before.start ≤ base.length ∧
    StandInOrder base 0 (c.before.start + c.before.items.length) cs ∧ StandInOrder base 0 (c.before.start + c.before.items.length) cs' ∧
    patchedFrom base 0 k (c :: cs) =
      cut base k c.before.start ++ c.after.items ++ patchedFrom base 0 (c.before.start + c.before.items.length) cs ∧
    patchedFrom base 0 k cs' =
      cut base k c.before.start ++ c.before.items ++ patchedFrom base 0 (c.before.start + c.before.items.length) cs' ∧
    base.drop k = cut base k c.before.start ++ c.before.items ++ base.drop (c.before.start + c.before.items.length) := by
  obtain ⟨h1, h2, h3⟩ := h
  simp only [Int.add_zero, Int.toNat_natCast] at h1 h2 h3
  have hw : c.before.start + c.before.items.length ≤ base.length := by
    obtain ⟨pre, post, rfl, e⟩ := h2
    simp only [List.length_append]
    omega
  have hk : k ≤ c.before.start := by omega
  have hcut : cut base k (c.before.start + c.before.items.length) = cut base k c.before.start ++ c.before.items := by
    rw [← cut_append base hk (Nat.le_add_right _ c.before.items.length), cut_stands h2]
  obtain ⟨l1, l2⟩ := StandInOrder.later (k' := c.before.start + c.before.items.length) (by omega) hw h' fun c' hc' => by
    have := hc c' hc'
    omega
  refine ⟨hk, by omega, h3, l1, by simp [patchedFrom], by rw [l2, hcut], ?_⟩
  rw [← hcut, ← cut_length_eq, ← cut_length_eq, cut_append base (by omega) hw]

/-- Two patches for the same file no clumps of which touch each other: the clumps of both in order. -/
theorem interleave {base : List T} (n : Nat) : ∀ {k : Nat} {cs cs' : List (DiffClump T)}, cs.length + cs'.length ≤ n →
    StandInOrder base 0 k cs → StandInOrder base 0 k cs' →
    (∀ c ∈ cs, ∀ c' ∈ cs', c.before.start + c.before.items.length ≤ c'.before.start ∨
      c'.before.start + c'.before.items.length ≤ c.before.start) →
    ∃ parts last, ownClumps true parts = cs ∧ ownClumps false parts = cs' ∧ InBase k parts ∧
      withPatches false false parts last = base.drop k ∧ withPatches true false parts last = patchedFrom base 0 k cs ∧
      withPatches false true parts last = patchedFrom base 0 k cs' := by
  have none : ∀ k, ∃ (parts : List (Owned T)) (last : List T), ownClumps true parts = [] ∧ ownClumps false parts = [] ∧ InBase k parts ∧
      withPatches false false parts last = base.drop k ∧ withPatches true false parts last = patchedFrom base 0 k [] ∧
      withPatches false true parts last = patchedFrom base 0 k [] :=
    fun k => ⟨[], base.drop k, rfl, rfl, trivial, rfl, rfl, rfl⟩
  induction n with
  | zero =>
    intro k cs cs' hn _ _ _
    obtain rfl : cs = [] := List.length_eq_zero_iff.1 (by omega)
    obtain rfl : cs' = [] := List.length_eq_zero_iff.1 (by omega)
    exact none k
  | succ n ih =>
    intro k cs cs' hn h h' hdis
    -- the first patch has the next clump
    have first : ∀ c rest, cs = c :: rest → (∀ c' ∈ cs', c.before.start + c.before.items.length ≤ c'.before.start) →
        ∃ parts last, ownClumps true parts = cs ∧ ownClumps false parts = cs' ∧ InBase k parts ∧
          withPatches false false parts last = base.drop k ∧ withPatches true false parts last = patchedFrom base 0 k cs ∧
          withPatches false true parts last = patchedFrom base 0 k cs' := by
      rintro c rest rfl hc
      obtain ⟨s1, s2, s3, s4, s5, s6, s7⟩ := merge_step h h' hc
      obtain ⟨parts, last, p1, p2, p3, p4, p5, p6⟩ := ih (by simp only [List.length_cons] at hn; omega) s3 s4
        fun x hx => hdis x (List.mem_cons_of_mem _ hx)
      have hg : (cut base k c.before.start).length = c.before.start - k := by simp only [cut, List.length_take, List.length_drop]; omega
      refine ⟨⟨cut base k c.before.start, c, true⟩ :: parts, last, ?_, ?_, ?_, ?_, ?_, ?_⟩
      · simpa [ownClumps] using p1
      · simpa [ownClumps] using p2
      · refine ⟨by simp only [hg]; omega, ?_⟩
        simp only [hg]
        rw [show k + (c.before.start - k) = c.before.start by omega]
        exact p3
      · rw [s7, ← p4]; rfl
      · rw [s5, ← p5]; rfl
      · rw [s6, ← p6]; rfl
    have second : ∀ c rest, cs' = c :: rest → (∀ c' ∈ cs, c.before.start + c.before.items.length ≤ c'.before.start) →
        ∃ parts last, ownClumps true parts = cs ∧ ownClumps false parts = cs' ∧ InBase k parts ∧
          withPatches false false parts last = base.drop k ∧ withPatches true false parts last = patchedFrom base 0 k cs ∧
          withPatches false true parts last = patchedFrom base 0 k cs' := by
      rintro c rest rfl hc
      obtain ⟨s1, s2, s3, s4, s5, s6, s7⟩ := merge_step h' h hc
      obtain ⟨parts, last, p1, p2, p3, p4, p5, p6⟩ := ih (by simp only [List.length_cons] at hn; omega) s4 s3
        fun x hx y hy => hdis x hx y (List.mem_cons_of_mem _ hy)
      have hg : (cut base k c.before.start).length = c.before.start - k := by simp only [cut, List.length_take, List.length_drop]; omega
      refine ⟨⟨cut base k c.before.start, c, false⟩ :: parts, last, ?_, ?_, ?_, ?_, ?_, ?_⟩
      · simpa [ownClumps] using p1
      · simpa [ownClumps] using p2
      · refine ⟨by simp only [hg]; omega, ?_⟩
        simp only [hg]
        rw [show k + (c.before.start - k) = c.before.start by omega]
        exact p3
      · rw [s7, ← p4]; rfl
      · rw [s6, ← p5]; rfl
      · rw [s5, ← p6]; rfl
    match cs, cs', h, h', hdis, first, second with
    | [], [], _, _, _, _, _ => exact none k
    | c :: cs, [], _, _, _, first, _ => exact first c cs rfl (by simp)
    | [], c :: cs', _, _, _, _, second => exact second c cs' rfl (by simp)
    | c :: cs, c' :: cs', h, h', hdis, first, second =>
      rcases hdis c List.mem_cons_self c' List.mem_cons_self with hle | hle
      · refine first c cs rfl fun x hx => ?_
        rcases List.mem_cons.1 hx with rfl | hx
        · exact hle
        · have := h'.2.2.disjoint.2 x hx
          omega
      · refine second c' cs' rfl fun x hx => ?_
        rcases List.mem_cons.1 hx with rfl | hx
        · exact hle
        · have := h.2.2.disjoint.2 x hx
          omega

/-- If the other patch adds no lines, no clump has moved down. -/
theorem notDown_forPatch (which : Bool) {base pos : Nat} {offset : Int} {lead : List T} {parts : List (Owned T)} (h : InBase base parts)
    (hn : ∀ c ∈ ownClumps (!which) parts, c.after.items.length ≤ c.before.items.length)
    (hle : ((pos + lead.length : Nat) : Int) ≤ base + offset) : NotDown pos offset (forPatch which true lead parts) := by
  induction parts generalizing base pos offset lead with
  | nil => trivial
  | cons x parts ih =>
    obtain ⟨h1, h2⟩ := h
    by_cases hx : (x.first == which) = true
    · rw [forPatch, if_pos hx]
      have hn' : ∀ c ∈ ownClumps (!which) parts, c.after.items.length ≤ c.before.items.length := by
        intro c hc
        refine hn c ?_
        simp only [ownClumps, List.mem_map, List.mem_filter] at hc ⊢
        obtain ⟨y, ⟨hy, e1⟩, e2⟩ := hc
        exact ⟨y, ⟨List.mem_cons_of_mem _ hy, e1⟩, e2⟩
      refine ⟨by simp only [List.length_append]; omega, ih h2 hn' ?_⟩
      simp only [List.length_append, List.length_nil]
      omega
    · rw [forPatch, if_neg hx]
      have hn' : ∀ c ∈ ownClumps (!which) parts, c.after.items.length ≤ c.before.items.length := by
        intro c hc
        refine hn c ?_
        simp only [ownClumps, List.mem_map, List.mem_filter] at hc ⊢
        obtain ⟨y, ⟨hy, e1⟩, e2⟩ := hc
        exact ⟨y, ⟨List.mem_cons_of_mem _ hy, e1⟩, e2⟩
      have hlen := hn x.clump (by
        simp only [ownClumps, List.mem_map, List.mem_filter]
        refine ⟨x, ⟨List.mem_cons_self, ?_⟩, rfl⟩
        revert hx
        cases x.first <;> cases which <;> simp)
      refine ih h2 hn' ?_
      simp only [List.length_append, sideOf]
      omega

end

section

variable {T : Type} [DecidableEq T] [Item T] [LawfulItem T]

/-- Two patches made from the same file, no clumps of which touch each other. The first makes `mine` of it, the second `theirs`. There is
one merged text such that each patch makes it of what the other one has made, with no clump failing, if each can be recognised there. -/
theorem C147_merge (p p' q : Profile) (base after after' : List T) (context context' : Nat) (hctx : context ≤ 255) (hctx' : context' ≤ 255)
    (cs cs' : List (DiffClump T)) (h : diffClumps p base after context = .ok cs) (h' : diffClumps p' base after' context' = .ok cs')
    (hsz : 2 * base.length + 2 * after.length + 2 * after'.length ≤ maxLines)
    (hdis : ∀ c ∈ cs, ∀ c' ∈ cs', c.before.start + c.before.items.length ≤ c'.before.start ∨
      c'.before.start + c'.before.items.length ≤ c.before.start) :
    ∃ parts last, ownClumps true parts = cs ∧ ownClumps false parts = cs' ∧ withPatches false false parts last = base ∧ InBase 0 parts ∧
      (applyInto q cs base false).run = (.ok { clean := cs.length }, bytesOf (withPatches true false parts last)) ∧
      (applyInto q cs' base false).run = (.ok { clean := cs'.length }, bytesOf (withPatches false true parts last)) ∧
      (NoIsland base after → withPatches true false parts last = after) ∧
      (NoIsland base after' → withPatches false true parts last = after') ∧
      ((∀ c' ∈ cs', c'.after.items.length ≤ c'.before.items.length) →
        (∀ c ∈ cs, ChangesUnique (withPatches false true parts last) c) → Locatable true true parts last) ∧
      ((∀ c ∈ cs, c.after.items.length ≤ c.before.items.length) →
        (∀ c' ∈ cs', ChangesUnique (withPatches true false parts last) c') → Locatable false true parts last) ∧
      (Locatable true true parts last → ∃ st, (applyInto q cs (withPatches false true parts last) false).run =
        (.ok st, bytesOf (withPatches true true parts last)) ∧ st.clean + st.fuzzy = cs.length ∧ st.failed = 0) ∧
      (Locatable false true parts last → ∃ st, (applyInto q cs' (withPatches true false parts last) false).run =
        (.ok st, bytesOf (withPatches true true parts last)) ∧ st.clean + st.fuzzy = cs'.length ∧ st.failed = 0) := by
  obtain ⟨hd, changes, hch, hd2⟩ := diffClumps_full hctx h
  obtain ⟨hd', changes', hch', hd2'⟩ := diffClumps_full hctx' h'
  obtain ⟨parts, last, p1, p2, p3, p4, p5, p6⟩ := interleave _ (Nat.le_refl _) hd2.standInOrder hd2'.standInOrder hdis
  have l1 := hd2.patched.1
  have l2 := hd2'.patched.1
  rw [← p5] at l1
  rw [← p6] at l2
  have run : ∀ (p : Profile) (after : List T) (context : Nat), context ≤ 255 → ∀ which,
      diffClumps p base after context = .ok (ownClumps which parts) →
      base.length + after.length + (seenBy which false true parts last).length ≤ maxLines → Locatable which true parts last →
      ∃ st, (applyInto q (ownClumps which parts) (seenBy which false true parts last) false).run =
        (.ok st, bytesOf (seenBy which true true parts last)) ∧ st.clean + st.fuzzy = (ownClumps which parts).length ∧ st.failed = 0 := by
    intro p after context hctx which h hsz hp
    refine ⟨_, (C145_exact p q base after context hctx which true parts last h hsz (onlyThere_locatable hp.1)).2 hp.2, ?_, rfl⟩
    have := shifts_le DiffClump.before 0 0 (forPatch which true [] parts)
    rw [← List.length_map (f := fun x => x.2), (forPatch_spec which true [] parts last).1] at this
    simp only
    omega
  refine ⟨parts, last, p1, p2, by rw [p4, List.drop_zero], p3, ?_, ?_, ?_, ?_, ?_, ?_, ?_, ?_⟩
  · rw [apply_to_source q hd (by omega) (by omega), WM.run_emit, p5]
  · rw [apply_to_source q hd' (by omega) (by omega), WM.run_emit, p6]
  · intro hi
    have := hd2.patched.2.2 (gaps_equal_of_noIsland hch hd2 hi)
    rw [p5, this, List.drop_zero]
  · intro hi
    have := hd2'.patched.2.2 (gaps_equal_of_noIsland hch' hd2' hi)
    rw [p6, this, List.drop_zero]
  · intro hn hu
    exact ⟨by rw [p1]; exact hu, withinSearch_notDown (notDown_forPatch true p3 (by rw [Bool.not_true, p2]; exact hn) (by simp))⟩
  · intro hn hu
    exact ⟨by rw [p2]; exact hu, withinSearch_notDown (notDown_forPatch false p3 (by rw [Bool.not_false, p1]; exact hn) (by simp))⟩
  · intro hp
    have := run p after context hctx true (by rw [p1]; exact h) (by simp only [seenBy, if_true]; omega) hp
    rw [p1] at this
    exact this
  · intro hp
    have := run p' after' context' hctx' false (by rw [p2]; exact h') (by simp only [seenBy, Bool.false_eq_true, if_false]; omega) hp
    rw [p2] at this
    exact this

/-- Two people change the same file. Neither adds more lines than they take out with any one clump, the clumps do not touch each other, and
the lines each changes occur once in the other's version. Then it does not matter whether the first patch is applied to the second
version or the second patch to the first: the same file comes out, and no clump fails. -/
theorem C147_symmetric (p p' q : Profile) (base mine theirs : List T) (context context' : Nat) (hctx : context ≤ 255) (hctx' : context' ≤ 255)
    (cs cs' : List (DiffClump T)) (h : diffClumps p base mine context = .ok cs) (h' : diffClumps p' base theirs context' = .ok cs')
    (hsz : 2 * base.length + 2 * mine.length + 2 * theirs.length ≤ maxLines)
    (hdis : ∀ c ∈ cs, ∀ c' ∈ cs', c.before.start + c.before.items.length ≤ c'.before.start ∨
      c'.before.start + c'.before.items.length ≤ c.before.start)
    (hi : NoIsland base mine) (hi' : NoIsland base theirs)
    (hn : ∀ c ∈ cs, c.after.items.length ≤ c.before.items.length) (hn' : ∀ c ∈ cs', c.after.items.length ≤ c.before.items.length)
    (hu : ∀ c ∈ cs, ChangesUnique theirs c) (hu' : ∀ c ∈ cs', ChangesUnique mine c) :
    ∃ (merged : List T) (st st' : Statistics), (applyInto q cs theirs false).run = (.ok st, bytesOf merged) ∧
      (applyInto q cs' mine false).run = (.ok st', bytesOf merged) ∧
      st.clean + st.fuzzy = cs.length ∧ st.failed = 0 ∧ st'.clean + st'.fuzzy = cs'.length ∧ st'.failed = 0 := by
  obtain ⟨parts, last, -, -, -, -, -, -, m1, m2, m3, m4, m5, m6⟩ := C147_merge p p' q base mine theirs context context' hctx hctx' cs cs' h h' hsz hdis
  have e1 := m1 hi
  have e2 := m2 hi'
  rw [e2] at m3 m5
  rw [e1] at m4 m6
  obtain ⟨st, r1, r2, r3⟩ := m5 (m3 hn' hu)
  obtain ⟨st', s1, s2, s3⟩ := m6 (m4 hn hu')
  exact ⟨_, st, st', r1, s1, r2, r3, s2, s3⟩

end

/-- The same of pw_patch: one person, who has their version `s`, applies my patch, and I, who have my version `r`, apply theirs. Both runs
end with exit status 0 and leave the same file. -/
theorem C147_program (p p' q : Profile) (temp temp' patch patch' target target' : Path) (w w' : World) (hf : w.faults = [])
    (hf' : w'.faults = []) (d d' : TextChangeDiff) (hp : HoldsDiff w.fs patch (.textChange d))
    (hp' : HoldsDiff w'.fs patch' (.textChange d')) (ht : d.beforePath = target) (ht' : d'.beforePath = target')
    (hfree : w.fs.node (w.fs.entry temp) = none) (hfree' : w'.fs.node (w'.fs.entry temp') = none)
    (base r s : Str) (context context' : Nat) (hctx : context ≤ 255) (hctx' : context' ≤ 255)
    (h : diffClumps p (splitInclusive base) (splitInclusive r) context = .ok d.clumps)
    (h' : diffClumps p' (splitInclusive base) (splitInclusive s) context' = .ok d'.clumps)
    (hold : w.fs.contentAt target = some ⟨s.bytes, false⟩) (hold' : w'.fs.contentAt target' = some ⟨r.bytes, false⟩)
    (hsz : 2 * (splitInclusive base).length + 2 * (splitInclusive r).length + 2 * (splitInclusive s).length ≤ maxLines)
    (hdis : ∀ c ∈ d.clumps, ∀ c' ∈ d'.clumps, c.before.start + c.before.items.length ≤ c'.before.start ∨
      c'.before.start + c'.before.items.length ≤ c.before.start)
    (hi : NoIsland (splitInclusive base) (splitInclusive r)) (hi' : NoIsland (splitInclusive base) (splitInclusive s))
    (hn : ∀ c ∈ d.clumps, c.after.items.length ≤ c.before.items.length)
    (hn' : ∀ c ∈ d'.clumps, c.after.items.length ≤ c.before.items.length)
    (hu : ∀ c ∈ d.clumps, ChangesUnique (splitInclusive s) c) (hu' : ∀ c ∈ d'.clumps, ChangesUnique (splitInclusive r) c) :
    ∃ merged : List UInt8,
      (pwPatch q temp patch false).run w =
        (.exited 0, { w with fs := w.fs.set (w.fs.entry target) (some (.file merged)) }) ∧
      (pwPatch q temp' patch' false).run w' =
        (.exited 0, { w' with fs := w'.fs.set (w'.fs.entry target') (some (.file merged)) }) := by
  obtain ⟨merged, st, st', r1, r2, -⟩ := C147_symmetric p p' q _ _ _ context context' hctx hctx' _ _ h h' hsz hdis hi hi' hn hn' hu hu'
  exact ⟨bytesOf merged,
    C46_normal q temp patch target false w (.textChange d) hp (congrArg some ht) hf hfree hold ⟨_, _, rfl, r1⟩,
    C46_normal q temp' patch' target' false w' (.textChange d') hp' (congrArg some ht') hf' hfree' hold' ⟨_, _, rfl, r2⟩⟩

def mergeBase : List Str := letters ['a', 'b', 'c', 'd', 'e', 'f', 'g', 'h', 'i', 'j', 'k', 'l', 'm', 'n', 'o', 'p']

def mergeMine : List Str := letters ['a', 'c', 'd', 'e', 'f', 'g', 'h', 'i', 'X', 'Y', 'l', 'm', 'n', 'o', 'p']

def mergeTheirs : List Str := letters ['a', 'b', 'c', 'd', 'e', 'P', 'h', 'i', 'j', 'k', 'l', 'm', 'n', 'o', 'Q']

theorem merge_mine : diffClumps .debug mergeBase mergeMine 1 =
    .ok [⟨(1, 1), ⟨0, letters ['a', 'b', 'c']⟩, ⟨0, letters ['a', 'c']⟩⟩,
      ⟨(1, 1), ⟨8, letters ['i', 'j', 'k', 'l']⟩, ⟨7, letters ['i', 'X', 'Y', 'l']⟩⟩] := by decide +kernel

theorem merge_theirs : diffClumps .debug mergeBase mergeTheirs 1 =
    .ok [⟨(1, 1), ⟨4, letters ['e', 'f', 'g', 'h']⟩, ⟨4, letters ['e', 'P', 'h']⟩⟩,
      ⟨(1, 0), ⟨14, letters ['o', 'p']⟩, ⟨13, letters ['o', 'Q']⟩⟩] := by decide +kernel

/-- Four clumps, of the one and the other by turns. -/
example (q : Profile) := C147_symmetric .debug .debug q mergeBase mergeMine mergeTheirs 1 1 (by decide) (by decide) _ _ merge_mine merge_theirs
  (by decide +kernel) (by decide +kernel) (noIsland_of_check (by decide +kernel)) (noIsland_of_check (by decide +kernel))
  (by decide +kernel) (by decide +kernel) (by decide +kernel) (by decide +kernel)

example (q : Profile) := C147_merge .debug .debug q mergeBase mergeMine mergeTheirs 1 1 (by decide) (by decide) _ _ merge_mine merge_theirs
  (by decide +kernel) (by decide +kernel)

/-- In both places `A` is the version there and `C` the patch from elsewhere. -/
example (q : Profile) : ∃ (w w' v v' : World) (merged : List UInt8), (pwPatch q [84] [67] false).run w = (.exited 0, v) ∧
    (pwPatch q [84] [67] false).run w' = (.exited 0, v') ∧ w.fs.contentAt [65] = some ⟨bytesOf mergeTheirs, false⟩ ∧
    w'.fs.contentAt [65] = some ⟨bytesOf mergeMine, false⟩ ∧ v.fs.contentAt [65] = some ⟨merged, false⟩ ∧
    v'.fs.contentAt [65] = some ⟨merged, false⟩ := by
  have eb : splitInclusive mergeBase.flatten = mergeBase := by decide +kernel
  have em : splitInclusive mergeMine.flatten = mergeMine := by decide +kernel
  have et : splitInclusive mergeTheirs.flatten = mergeTheirs := by decide +kernel
  have bm : bytesOf mergeMine = Str.bytes mergeMine.flatten := by rw [← bytesOf_splitInclusive, em]
  have bt : bytesOf mergeTheirs = Str.bytes mergeTheirs.flatten := by rw [← bytesOf_splitInclusive, et]
  have paths : ∀ (cs : List (DiffClump Str)), ∀ path ∈ (Diff.textChange ⟨[65], [66], cs⟩).paths, IsUtf8 path := by
    intro cs path h
    simp only [Diff.paths, List.mem_cons, List.not_mem_nil, or_false] at h
    rcases h with rfl | rfl
    · exact ⟨['A'], by decide⟩
    · exact ⟨['B'], by decide⟩
  have place : ∀ (a : List UInt8) (cs : List (DiffClump Str)), (∀ c ∈ cs, c.InRange) → ∃ fs : FS,
      HoldsDiff fs [67] (.textChange ⟨[65], [66], cs⟩) ∧ fs.node (fs.entry [84]) = none ∧ fs.contentAt [65] = some ⟨a, false⟩ := by
    intro a cs hr
    obtain ⟨e1, e2, e3, e4, e5, e6, e7, e8, e9, e10, e11⟩ := FS.ofFiles_patches a (Diff.textChange ⟨[65], [66], cs⟩).fileContent []
    exact ⟨_, holdsDiff_of_file hr (paths _) e10, by rw [e4, e8], e9⟩
  obtain ⟨fs, x1, x2, x3⟩ := place (bytesOf mergeTheirs) [⟨(1, 1), ⟨0, letters ['a', 'b', 'c']⟩, ⟨0, letters ['a', 'c']⟩⟩,
      ⟨(1, 1), ⟨8, letters ['i', 'j', 'k', 'l']⟩, ⟨7, letters ['i', 'X', 'Y', 'l']⟩⟩] (by
    intro c hc
    simp at hc
    rcases hc with rfl | rfl <;> simp [DiffClump.InRange, wordSize])
  obtain ⟨fs', y1, y2, y3⟩ := place (bytesOf mergeMine) [⟨(1, 1), ⟨4, letters ['e', 'f', 'g', 'h']⟩, ⟨4, letters ['e', 'P', 'h']⟩⟩,
      ⟨(1, 0), ⟨14, letters ['o', 'p']⟩, ⟨13, letters ['o', 'Q']⟩⟩] (by
    intro c hc
    simp at hc
    rcases hc with rfl | rfl <;> simp [DiffClump.InRange, wordSize])
  obtain ⟨merged, h1, h2⟩ := C147_program .debug .debug q [84] [84] [67] [67] [65] [65] ⟨fs, [], []⟩ ⟨fs', [], []⟩ rfl rfl _ _ x1 y1 rfl rfl x2 y2
    mergeBase.flatten mergeMine.flatten mergeTheirs.flatten 1 1 (by decide) (by decide) (by rw [eb, em]; exact merge_mine)
    (by rw [eb, et]; exact merge_theirs) (by rw [← bt]; exact x3) (by rw [← bm]; exact y3) (by rw [eb, em, et]; decide +kernel)
    (by decide +kernel) (by rw [eb, em]; exact noIsland_of_check (by decide +kernel)) (by rw [eb, et]; exact noIsland_of_check (by decide +kernel))
    (by decide +kernel) (by decide +kernel) (by rw [et]; decide +kernel) (by rw [em]; decide +kernel)
  exact ⟨_, _, _, _, merged, h1, h2, x3, y3, FS.contentAt_of_file (by simp), FS.contentAt_of_file (by simp)⟩

/-- What one may expect: two patches from one file that do not touch each other can be applied after each other, whatever they add. -/
def C147_statement : Prop :=
  ∀ (p q : Profile) (base mine theirs : List Str) (context : Nat) (cs cs' : List (DiffClump Str)), context ≤ 255 →
    diffClumps p base mine context = .ok cs → diffClumps p base theirs context = .ok cs' →
    (∀ c ∈ cs, ∀ c' ∈ cs', c.before.start + c.before.items.length ≤ c'.before.start ∨
      c'.before.start + c'.before.items.length ≤ c.before.start) →
    NoIsland base mine → NoIsland base theirs → (∀ c ∈ cs, ChangesUnique theirs c) → (∀ c ∈ cs', ChangesUnique mine c) →
    (applyInto q cs theirs false).run.2 = (applyInto q cs' mine false).run.2

def mergeFar : List Str := letters ['p', 'q', 'r', 'a', 'b', 'c', 'd', 'e', 'f', 'g', 'h', 'i', 'j', 'k']

/-- That is not so: they put in so many lines that my first clump has come to stand after the place where my second one is expected. -/
theorem C147_refuted : ¬ C147_statement := by
  intro h
  have hx := h .debug .release mergeFar (letters ['p', 'q', 'r', 'a', 'b', 'c', 'X', 'Y', 'e', 'f', 'g', 'h', 'Z', 'W', 'j', 'k'])
    (letters ['p', '1', '2', '3', '4', '5', '6', 'r', 'a', 'b', 'c', 'd', 'e', 'f', 'g', 'h', 'i', 'j', 'k']) 1
    [⟨(1, 1), ⟨5, letters ['c', 'd', 'e']⟩, ⟨5, letters ['c', 'X', 'Y', 'e']⟩⟩,
     ⟨(1, 1), ⟨10, letters ['h', 'i', 'j']⟩, ⟨11, letters ['h', 'Z', 'W', 'j']⟩⟩]
    [⟨(1, 1), ⟨0, letters ['p', 'q', 'r']⟩, ⟨0, letters ['p', '1', '2', '3', '4', '5', '6', 'r']⟩⟩]
    (by decide) (by decide +kernel) (by decide +kernel) (by decide +kernel) (noIsland_of_check (by decide +kernel))
    (noIsland_of_check (by decide +kernel)) (by decide +kernel) (by decide +kernel)
  revert hx
  decide +kernel

end PwDiff
