import Verif.Props.Blocks
import Verif.Props.Programs

/-! # C80–C81: what becomes of one edit -/

namespace PwDiff

open Sys

section

variable {T : Type} [DecidableEq T] [Item T] [LawfulItem T]

/-! ## C80 -/

/-- The unchanged block of the items of `L` at `i` and `j`. -/
def kept (i j : Nat) (L : List T) : List Change := if L = [] then [] else [.noChange ⟨i, j, L.length⟩]

omit [DecidableEq T] [Item T] [LawfulItem T] in
/-- Where the two sequences agree when `X` was replaced by `Y` between `P` and `S`. -/
theorem edit_hits (P S X Y : List T) (hn : (P ++ S).Nodup) (hX : ∀ x ∈ X, x ∉ P ++ Y ++ S) (hY : ∀ y ∈ Y, y ∉ P ++ S)
    (j i : Nat) : Hit (P ++ X ++ S) (P ++ Y ++ S) j i ↔
      (j = i ∧ j < P.length) ∨ (P.length + X.length ≤ j ∧ j < P.length + X.length + S.length ∧ j + Y.length = i + X.length) := by
  have look : ∀ (M : List T) (k : Nat) (z : T), (P ++ M ++ S)[k]? = some z →
      (k < P.length ∧ (P ++ S)[k]? = some z) ∨ (P.length ≤ k ∧ k < P.length + M.length ∧ z ∈ M) ∨
      (P.length + M.length ≤ k ∧ k < P.length + M.length + S.length ∧ (P ++ S)[k - M.length]? = some z) := by
    intro M k z h
    rw [List.append_assoc] at h
    rcases Nat.lt_or_ge k P.length with h1 | h1
    · rw [List.getElem?_append_left h1] at h
      exact .inl ⟨h1, by rw [List.getElem?_append_left h1]; exact h⟩
    · rw [List.getElem?_append_right h1] at h
      rcases Nat.lt_or_ge (k - P.length) M.length with h2 | h2
      · rw [List.getElem?_append_left h2] at h
        exact .inr (.inl ⟨h1, by omega, List.mem_of_getElem? h⟩)
      · rw [List.getElem?_append_right h2] at h
        have := (List.getElem?_eq_some_iff.1 h).1
        refine .inr (.inr ⟨by omega, by omega, ?_⟩)
        rw [List.getElem?_append_right (by omega), ← h]
        congr 1
        omega
  have mem : ∀ {k : Nat} {z : T}, (P ++ S)[k]? = some z → z ∈ P ++ S := fun h => List.mem_of_getElem? h
  have inj : ∀ {i j : Nat} {z : T}, (P ++ S)[i]? = some z → (P ++ S)[j]? = some z → i = j := by
    intro i j z h1 h2
    exact (List.getElem?_inj (List.getElem?_eq_some_iff.1 h1).1 hn).1 (h1.trans h2.symm)
  have hXs : ∀ x ∈ X, x ∉ P ++ S := fun x hx h => hX x hx (by
    rw [List.mem_append] at h
    simp only [List.mem_append]
    rcases h with h | h <;> simp [h])
  have hXY : ∀ x ∈ X, x ∉ Y := fun x hx h => hX x hx (by simp [h])
  constructor
  · rintro ⟨z, h1, h2⟩
    rcases look X j z h1 with ⟨a1, a2⟩ | ⟨a1, a2, a3⟩ | ⟨a1, a2, a3⟩ <;>
      rcases look Y i z h2 with ⟨b1, b2⟩ | ⟨b1, b2, b3⟩ | ⟨b1, b2, b3⟩
    · left; exact ⟨inj a2 b2, a1⟩
    · exact absurd (mem a2) (hY z b3)
    · have := inj a2 b3; omega
    · exact absurd (mem b2) (hXs z a3)
    · exact absurd b3 (hXY z a3)
    · exact absurd (mem b3) (hXs z a3)
    · have := inj a3 b2; omega
    · exact absurd (mem a3) (hY z b3)
    · have := inj a3 b3
      right; omega
  · rintro (⟨rfl, h⟩ | ⟨h1, h2, h3⟩)
    · refine ⟨P[j], ?_, ?_⟩ <;> rw [List.append_assoc, List.getElem?_append_left h] <;> exact List.getElem?_eq_getElem h
    · have hs : j - P.length - X.length < S.length := by omega
      refine ⟨S[j - P.length - X.length], ?_, ?_⟩
      · rw [List.append_assoc, List.getElem?_append_right (by omega), List.getElem?_append_right (by omega)]
        exact List.getElem?_eq_getElem hs
      · rw [List.append_assoc, List.getElem?_append_right (by omega), List.getElem?_append_right (by omega),
          show i - P.length - Y.length = j - P.length - X.length by omega]
        exact List.getElem?_eq_getElem hs

omit [DecidableEq T] [Item T] [LawfulItem T] in
theorem edit_noIsland (P S X Y : List T) (hn : (P ++ S).Nodup) (hX : ∀ x ∈ X, x ∉ P ++ Y ++ S) (hY : ∀ y ∈ Y, y ∉ P ++ S)
    (h1 : ¬ (X.length = 1 ∧ Y.length = 1)) : NoIsland (P ++ X ++ S) (P ++ Y ++ S) := by
  intro j i a b
  rw [edit_hits P S X Y hn hX hY] at a b ⊢
  omega

/-- One edited region in a sequence of otherwise pairwise different items is found exactly, unless it replaces one item by one
item (see C73) or nothing by nothing. -/
theorem C80_edit (p : Profile) (P S X Y : List T) (hn : (P ++ S).Nodup) (hX : ∀ x ∈ X, x ∉ P ++ Y ++ S)
    (hY : ∀ y ∈ Y, y ∉ P ++ S) (h0 : X ≠ [] ∨ Y ≠ []) (h1 : ¬ (X.length = 1 ∧ Y.length = 1)) :
    changesOf p (P ++ X ++ S) (P ++ Y ++ S) = .ok (kept 0 0 P ++ between P.length P.length X Y ++
      kept (P.length + X.length) (P.length + Y.length) S) := by
  have hh := edit_hits P S X Y hn hX hY
  have h0' : 0 < X.length ∨ 0 < Y.length := h0.imp List.length_pos_iff.2 List.length_pos_iff.2
  have ho : InOrder (P ++ X ++ S) (P ++ Y ++ S) := by
    intro j i j' i' a b
    rw [hh] at a b
    omega
  have hi := edit_noIsland P S X Y hn hX hY h1
  obtain ⟨changes, hc, hk⟩ := C71_minimal p _ _ ho hi
  obtain ⟨-, -, -, d, hd, hkd⟩ := (C70_changes p _ _ changes).1 hc
  refine (C70_changes p _ _ _).2 ⟨?_, ?_, ?_, d, hd, ?_⟩
  · unfold kept
    cases X <;> cases Y <;> by_cases hP : P = [] <;> by_cases hS : S = [] <;>
      simp_all [Tiles, between, Change.old, Change.new] <;> omega
  · intro c hc
    unfold kept at hc
    have pos : ∀ L : List T, L ≠ [] → 0 < L.length := fun L h => List.length_pos_iff.2 h
    simp only [List.mem_append] at hc
    rcases hc with (hc | hc) | hc
    · split at hc
      · cases hc
      · next h =>
        obtain rfl := List.mem_singleton.1 hc
        exact pos _ h
    · cases X <;> cases Y <;> simp [between] at hc <;> subst hc <;> simp [Change.Proper]
    · split at hc
      · cases hc
      · next h =>
        obtain rfl := List.mem_singleton.1 hc
        exact pos _ h
  · unfold kept
    cases X <;> cases Y <;> by_cases hP : P = [] <;> by_cases hS : S = [] <;>
      simp_all [Alternating, between, Change.isNoChange]
  · intro j i
    rw [← hkd, hk, hh]
    have happ : ∀ a b : List Change, Kept (a ++ b) j i ↔ Kept a j i ∨ Kept b j i := by
      intro a b
      simp only [Kept, List.mem_append]
      constructor
      · rintro ⟨c, h | h, hc⟩
        · exact .inl ⟨c, h, hc⟩
        · exact .inr ⟨c, h, hc⟩
      · rintro (⟨c, h, hc⟩ | ⟨c, h, hc⟩)
        · exact ⟨c, .inl h, hc⟩
        · exact ⟨c, .inr h, hc⟩
    have hkept : ∀ (a b : Nat) (L : List T), Kept (kept a b L) j i ↔ a ≤ j ∧ j < a + L.length ∧ j + b = i + a := by
      intro a b L
      unfold kept
      split
      · next h =>
        subst h
        simp only [Kept, List.not_mem_nil, false_and, exists_false, List.length_nil, false_iff]
        omega
      · simp only [Kept, List.mem_singleton, Change.noChange.injEq, exists_eq_left, CommonSubsequence.Covers]
        constructor
        · rintro ⟨t, h1, h2, h3⟩
          omega
        · rintro ⟨h1, h2, h3⟩
          exact ⟨j - a, by omega, by omega, by omega⟩
    have hbetween : ¬ Kept (between P.length P.length X Y) j i := by
      rintro ⟨c, hc, -⟩
      cases X <;> cases Y <;> simp [between] at hc
    rw [happ, happ, hkept, hkept]
    simp only [hbetween, or_false]
    omega

example : changesOf .debug ([1, 2, 3, 3, 4] : List UInt8) [1, 2, 7, 8, 4] =
    .ok [.noChange ⟨0, 0, 2⟩, .replace ⟨2, 4⟩ ⟨2, 4⟩, .noChange ⟨4, 4, 1⟩] :=
  C80_edit .debug [1, 2] [4] [3, 3] [7, 8] (by decide) (by decide) (by decide) (by decide) (by decide)

end

/-- Such an edit is carried over by `pw_diff` and `pw_patch`, and taken back by `pw_patch --reverse`. -/
theorem C80_session (p q : Profile) (temp patch before after : Path) (context : Nat) (w : World) (s t : Str)
    (hw : Fresh w patch temp) (hctx : context ≤ 255) (hub : IsUtf8 before) (hua : IsUtf8 after)
    (hb : w.fs.contentAt before = some ⟨s.bytes, false⟩) (ha : w.fs.contentAt after = some ⟨t.bytes, false⟩)
    (hsb : (splitInclusive s).length ≤ maxLines) (hst : (splitInclusive t).length ≤ maxLines)
    (P S X Y : List Str) (hs : splitInclusive s = P ++ X ++ S) (ht : splitInclusive t = P ++ Y ++ S) (hn : (P ++ S).Nodup)
    (hX : ∀ x ∈ X, x ∉ P ++ Y ++ S) (hY : ∀ y ∈ Y, y ∉ P ++ S) (h1 : ¬ (X.length = 1 ∧ Y.length = 1)) :
    ∃ patchContent, session p q temp patch before after context w =
      ((.exited 0, { w with stdout := patchContent }),
       (.exited 0, { w with fs := (w.fs.set (w.fs.entry patch) (some (.file patchContent))).set (w.fs.entry before) (some (.file t.bytes)) }),
       (.exited 0, { w with fs := (w.fs.set (w.fs.entry patch) (some (.file patchContent))).set (w.fs.entry before) (some (.file s.bytes)) })) :=
  C49_text_partial p q temp patch before after context w s t hw hctx hub hua hb ha hsb hst
    (by rw [hs, ht]; exact edit_noIsland P S X Y hn hX hY h1)

/-- `b` is replaced by `X` and `Y`. -/
example (p q : Profile) (w : World) (hw : Fresh w [67] [84]) (hb : w.fs.contentAt [65] = some ⟨Str.bytes "a\nb\nc\n".toList, false⟩)
    (ha : w.fs.contentAt [66] = some ⟨Str.bytes "a\nX\nY\nc\n".toList, false⟩) :=
  C80_session p q [84] [67] [65] [66] 3 w "a\nb\nc\n".toList "a\nX\nY\nc\n".toList hw (by decide) ⟨['A'], by decide⟩ ⟨['B'], by decide⟩ hb ha
    (by decide +kernel) (by decide +kernel) [ln 'a'] [ln 'c'] [ln 'b'] [ln 'X', ln 'Y'] (by decide +kernel) (by decide +kernel)
    (by decide) (by decide) (by decide) (by decide)

/-! ## C81 -/

/-- Two files of pairwise different lines that differ in one line, which is not the last and has at least as many lines before
it as after it: `pw_diff` writes the patch without clumps, as for equal files, and ends with exit status 0; `pw_patch` leaves
the content of the first file as it was and ends with exit status 0. -/
theorem C81_lost (p q : Profile) (temp patch before after : Path) (context : Nat) (w : World) (s t : Str)
    (hw : Fresh w patch temp) (hub : IsUtf8 before) (hua : IsUtf8 after)
    (hb : w.fs.contentAt before = some ⟨s.bytes, false⟩) (ha : w.fs.contentAt after = some ⟨t.bytes, false⟩)
    (P S : List Str) (x y : Str) (hs : splitInclusive s = P ++ x :: S) (ht : splitInclusive t = P ++ y :: S)
    (hn : (P ++ S).Nodup) (hx : x ∉ P ++ S) (hy : y ∉ P ++ S) (hxy : x ≠ y) (hS : S ≠ []) (hlen : S.length ≤ P.length) :
    let patchContent := (Diff.textChange ⟨before, after, []⟩).fileContent
    session p q temp patch before after context w =
      ((.exited 0, { w with stdout := patchContent }),
       (.exited 0, { w with fs := (w.fs.set (w.fs.entry patch) (some (.file patchContent))).set (w.fs.entry before) (some (.file s.bytes)) }),
       (.exited 0, { w with fs := (w.fs.set (w.fs.entry patch) (some (.file patchContent))).set (w.fs.entry before) (some (.file s.bytes)) })) := by
  have hcs := C73_noClumps p P S x y hn hx hy hxy hS hlen context
  rw [← hs, ← ht] at hcs
  have hd := diffNew_text hw.faults p context hb ha hcs
  have e : ∀ rev, PatchedContent q rev (.textChange ⟨before, after, []⟩) s.bytes s.bytes := by
    intro rev
    refine ⟨s, {}, rfl, ?_⟩
    rw [C27_empty]
    show _ = (Outcome.ok _, s.bytes)
    congr 1
    show (splitInclusive s).flatMap Str.bytes = _
    rw [flatMap_bytes, flatten_splitInclusive]
  exact session_change p q hw hd (by intro c hc; cases hc)
    (by intro path h; simp only [Diff.paths, List.mem_cons, List.not_mem_nil, or_false] at h; rcases h with rfl | rfl <;> assumption)
    rfl hb (e false) (e true)

/-- The same patch is written for two equal files. -/
theorem C81_asEqual (p : Profile) (before after : Path) (context : Nat) (w : World) (s : Str) (hw : w.faults = [])
    (hs : w.stdout = []) (hub : IsUtf8 before) (hua : IsUtf8 after)
    (hb : w.fs.contentAt before = some ⟨s.bytes, false⟩) (ha : w.fs.contentAt after = some ⟨s.bytes, false⟩) :
    (pwDiff p before after context).run w =
      (.exited 0, { w with stdout := (Diff.textChange ⟨before, after, []⟩).fileContent }) := by
  have hcs : diffClumps p (splitInclusive s) (splitInclusive s) context = .ok [] :=
    (clumpsOf_noReals p _ _ context (changesOf_self p (splitInclusive s)) (by split <;> simp [reals, Change.isNoChange])).2
  have hd := diffNew_text hw p context hb ha hcs
  have := run_of_ok (pwDiff_eq hw p before after context hd (toWriter_fromReader _ (by intro c hc; cases hc)
    (by intro path h; simp only [Diff.paths, List.mem_cons, List.not_mem_nil, or_false] at h; rcases h with rfl | rfl <;> assumption)).1)
  rw [hs] at this
  exact this

/-- Lines to which it applies. -/
example : let P := [ln 'a', ln 'b']; let S := [ln 'c', ln 'd']
    (P ++ S).Nodup ∧ ln 'x' ∉ P ++ S ∧ ln 'y' ∉ P ++ S ∧ ln 'x' ≠ ln 'y' ∧ S ≠ [] ∧ S.length ≤ P.length ∧
    splitInclusive ['a', '\n', 'b', '\n', 'x', '\n', 'c', '\n', 'd', '\n'] = P ++ ln 'x' :: S := by decide +kernel

example (p q : Profile) (w : World) (hw : Fresh w [67] [84])
    (hb : w.fs.contentAt [65] = some ⟨Str.bytes "a\nb\nx\nc\nd\n".toList, false⟩)
    (ha : w.fs.contentAt [66] = some ⟨Str.bytes "a\nb\ny\nc\nd\n".toList, false⟩) :=
  C81_lost p q [84] [67] [65] [66] 3 w "a\nb\nx\nc\nd\n".toList "a\nb\ny\nc\nd\n".toList hw ⟨['A'], by decide⟩ ⟨['B'], by decide⟩ hb ha
    [ln 'a', ln 'b'] [ln 'c', ln 'd'] (ln 'x') (ln 'y') (by decide +kernel) (by decide +kernel) (by decide) (by decide) (by decide)
    (by decide) (by decide) (by decide)

end PwDiff
