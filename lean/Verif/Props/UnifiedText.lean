import Verif.Proofs.UnifiedBack
import Verif.Props.Blocks
import Verif.Props.Clumps
import Verif.Props.Unified

/-! # C53, C54, C65, C68: generating unified diffs -/

namespace PwDiff

/-! ## C53 -/

/-- The claim in full: the ` ` and `-` lines are the old range, the ` ` and `+` lines the new range of the clump. -/
def C53_statement (p : Profile) : Prop := ∀ (before after : List Str) (context : Nat) (ccs : List ChangeClump)
  (texts : List UnifiedClumpText), clumpsOf p before after context = .ok ccs → unifiedClumps p before after context = .ok texts →
    ∀ (k : Nat) (cc : ChangeClump) (t : UnifiedClumpText), ccs[k]? = some cc → texts[k]? = some t →
      unmark (t.lines.filter isOld) = cut before cc.ranges.1.start cc.ranges.1.fin ∧
      unmark (t.lines.filter isNew) = cut after cc.ranges.2.start cc.ranges.2.fin

/-- Two files; the change in the second line is missed (C10). -/
def islandBefore : List Str := ["a\n".toList, "b\n".toList, "c\n".toList]
def islandAfter : List Str := ["a\n".toList, "x\n".toList, "c\n".toList, "d\n".toList]

/-- The new side is wrong when a changed line was taken for an unchanged one. -/
theorem C53_refuted (p : Profile) : ¬ C53_statement p := by
  intro h
  have := (h islandBefore islandAfter 3 [⟨[.noChange ⟨0, 0, 3⟩, .insert 3 ⟨3, 4⟩]⟩]
    [⟨"@@ -0,3 +0,4 @@".toList, [" a\n".toList, " b\n".toList, " c\n".toList, "+d\n".toList]⟩]
    (by cases p <;> decide +kernel) (by cases p <;> decide +kernel) 0 _ _ rfl rfl).2
  revert this
  decide

/-- What holds: the generator never panics and makes one hunk per clump, in order.  Its header gives the ranges of the
clump; its lines describe the clump's changes (`Describes`: the old side is the old range, the new side is what the changes
make of it); if the last line does not end with a newline one more element follows. The new side is the new range of the
clump if there is no single differing pair between two equal pairs. -/
theorem C53_partial (p : Profile) (before after : List Str) (context : Nat) :
    ∃ ccs texts, clumpsOf p before after context = .ok ccs ∧ unifiedClumps p before after context = .ok texts ∧
      texts.length = ccs.length ∧
      ∀ (k : Nat) (cc : ChangeClump) (t : UnifiedClumpText), ccs[k]? = some cc → texts[k]? = some t →
        t.header = cc.header.display ∧
        (∃ body, Describes before after cc body ∧ body ≠ [] ∧
          ((∃ init l, body = init ++ [l ++ ['\n']] ∧ t.lines = body) ∨
           (∃ init l, body = init ++ [l] ∧ l.getLast? ≠ some '\n' ∧ t.lines = body ++ ["\n\\\n".toList]))) ∧
        (NoIsland before after → replay before after cc.changes = cut after cc.ranges.2.start cc.ranges.2.fin) := by
  obtain ⟨changes, ccs, e1, e2, facts, e3⟩ := unifiedClumps_eq p before after context
  refine ⟨ccs, _, ?_, e3, by simp, ?_⟩
  · unfold clumpsOf
    rw [e1]
    exact e2
  intro k cc t hk ht
  rw [List.getElem?_map, hk] at ht
  injection ht with ht
  subst ht
  have f := facts cc (List.mem_of_getElem? hk)
  refine ⟨rfl, ⟨textOf before after cc.changes, f.describes, f.nonempty, ?_⟩, f.replayed⟩
  have hl := List.dropLast_concat_getLast f.nonempty
  unfold closed
  dsimp only
  rw [List.getLast?_eq_some_getLast f.nonempty, Option.bind_some]
  generalize (textOf before after cc.changes).getLast f.nonempty = l at hl
  split
  · rename_i hn
    refine .inl ⟨(textOf before after cc.changes).dropLast, l.dropLast, ?_, rfl⟩
    have hne : l ≠ [] := by rintro rfl; simp at hn
    rw [List.getLast?_eq_some_getLast hne] at hn
    injection hn with hn
    rw [← hn, List.dropLast_concat_getLast]
    exact hl.symm
  · rename_i hn
    exact .inr ⟨_, l, hl.symm, hn, rfl⟩

/-- A hunk with all three kinds of lines, without newline at the end. -/
example : unifiedClumps .debug ["a\n".toList, "b\n".toList, "c\n".toList] ["a\n".toList, "c\n".toList, "d".toList] 1 =
    .ok [⟨"@@ -0,3 +0,3 @@".toList, [" a\n".toList, "-b\n".toList, " c\n".toList, "+d".toList, "\n\\\n".toList]⟩] := by decide +kernel

/-! ## C54 -/

/-- A text that contains a generated hunk. -/
def hunkText (pre : Str) (t : UnifiedClumpText) (post : Str) : Str := pre ++ (t.header ++ ['\n'] ++ (t.lines.flatten ++ post))

/-- For texts with a final newline and contexts up to a bound: a hunk, written into a text and read again, is parsed with
the header of its clump, its lines, and the context lengths of the clump. -/
def C54_upTo (p : Profile) (bound : Nat) : Prop := ∀ (nd : Digits) (s t : Str) (context : Nat), context ≤ bound →
  EndsWell s → EndsWell t → s.length < 2 ^ 64 → t.length < 2 ^ 64 →
  ∀ (ccs : List ChangeClump) (texts : List UnifiedClumpText),
  clumpsOf p (splitInclusive s) (splitInclusive t) context = .ok ccs →
  unifiedClumps p (splitInclusive s) (splitInclusive t) context = .ok texts →
  ∀ (k : Nat) (cc : ChangeClump) (u : UnifiedClumpText), ccs[k]? = some cc → texts[k]? = some u →
  ∀ (pre post : Str), EndsWell pre → post.head? ≠ some '\\' →
    getFromAt p nd (splitInclusive (hunkText pre u post)) (splitInclusive pre).length =
      .ok (.ok (some ⟨cc.header, u.lines.filter isOld, u.lines.filter isNew, cc.contextLengths, u.lines.length + 1⟩))

theorem length_splitInclusive (s : Str) : (splitInclusive s).length ≤ s.length := by
  induction h : s.length using Nat.strongRecOn generalizing s with
  | _ n ih =>
    by_cases hs : s = []
    · subst hs; simp [splitInclusive]
    · obtain ⟨l, rest, f, e, hr, hl, -⟩ := splitInclusive_step s hs
      rw [e]
      have := List.length_pos_iff.mpr hl
      have hlen := congrArg List.length hr
      rw [List.length_append] at hlen
      have := ih rest.length (by omega) rest rfl
      simp only [List.length_cons]
      omega

theorem rest_newline : Rest ['\n'] := ⟨[], [], ['\n'], rfl, by simp, by simp, .inr rfl⟩

theorem display_no_newline (s : StartsAndLengths) : '\n' ∉ s.display := by
  have hd : ∀ n, '\n' ∉ decimal n := by
    intro n h
    have := Nat.isDigit_of_mem_toDigits (by omega) (by omega) h
    revert this
    decide
  unfold StartsAndLengths.display
  split <;> split <;> simp [hd]

theorem C54_of (p : Profile) (bound : Nat) (hb : p = .debug → bound ≤ 128) : C54_upTo p bound := by
  intro nd s t context hctx hs ht hs64 ht64 ccs texts h1 h2 k cc u hk hu pre post hpre hpost
  obtain ⟨changes, ccs', e1, e2, facts, e3⟩ := unifiedClumps_eq p (splitInclusive s) (splitInclusive t) context
  unfold clumpsOf at h1
  rw [e1] at h1
  obtain rfl := Outcome.ok_inj (e2.symm.trans h1)
  obtain rfl := Outcome.ok_inj (e3.symm.trans h2)
  rw [List.getElem?_map, hk] at hu
  injection hu with hu
  subst hu
  have f := facts cc (List.mem_of_getElem? hk)
  have hended := textOf_ended (cs := cc.changes) (ended_splitInclusive hs) (ended_splitInclusive ht)
  dsimp only
  rw [closed_ended f.nonempty hended]
  have hlines : splitInclusive (hunkText pre ⟨cc.header.display, textOf (splitInclusive s) (splitInclusive t) cc.changes⟩ post) =
      splitInclusive pre ++ (cc.header.display ++ ['\n']) ::
        (textOf (splitInclusive s) (splitInclusive t) cc.changes ++ splitInclusive post) := by
    unfold hunkText
    rw [splitInclusive_append hpre, splitInclusive_ended ⟨_, rfl, display_no_newline _⟩, splitInclusive_flatten hended]
  rw [hlines]
  have l1 := length_splitInclusive s
  have l2 := length_splitInclusive t
  have g1 := f.inside1
  have g2 := f.inside2
  have g3 := f.tiles.le
  have hann : Announces nd (cc.header.display ++ ['\n']) cc.header := by
    apply display_announces nd _ _ _ _ _ _ rest_newline <;> simp only [ChangeClump.header] <;> omega
  have hc := textOf_contexts f
  have hctxl : cc.contextLengths = (leadContext (textOf (splitInclusive s) (splitInclusive t) cc.changes) % 256,
      trailContext (textOf (splitInclusive s) (splitInclusive t) cc.changes) % 256) := by
    rw [hc.1, hc.2]
    rfl
  rw [hctxl]
  exact (Parses.hunk hann (f.isHunk fun hp => Nat.le_trans hctx (hb hp)) (noMark_splitInclusive hpost)).eq

/-- In release builds it holds for all contexts (they are bytes). -/
theorem C54_release : C54_upTo .release 255 := C54_of .release 255 (by simp)

/-- In debug builds it holds for contexts of at most 128 lines. -/
theorem C54_debug_partial : C54_upTo .debug 128 := C54_of .debug 128 (by simp)

/-- A file of 256 different lines, and the same with a line added in front and one at the end. -/
def longText : List Str := (List.range 256).map fun n => [Char.ofNat (n + 1000), '\n']
def longerText : List Str := [['a', '\n']] ++ longText ++ [['b', '\n']]

/-- 256 lines with a fresh line added in front and one at the end make one hunk. -/
theorem hunk_around (L : List Str) (x y : Str) (hl : L.length = 256) (hx : x ∉ L) (hy : y ∉ L) :
    clumpsOf .debug L ([x] ++ L ++ [y]) 129 =
      .ok [⟨[.insert 0 ⟨0, 1⟩, .noChange ⟨0, 1, 256⟩, .insert 256 ⟨257, 258⟩]⟩] := by
  have h := C72_core .debug [] [x] L [] [y] (by rintro rfl; simp at hl) (by simp) (by
    intro z hz
    simp only [List.cons_append, List.nil_append, List.mem_cons, List.not_mem_nil, or_false] at hz
    rcases hz with rfl | rfl
    · simpa using hx
    · simpa using hy)
  rw [hl] at h
  simp only [List.nil_append, List.append_nil] at h
  unfold clumpsOf
  rw [h]
  exact (by decide +kernel : changeClumps 129 [.insert 0 ⟨0, 1⟩, .noChange ⟨0, 1, 256⟩, .insert 256 ⟨257, 258⟩] =
    .ok [⟨[.insert 0 ⟨0, 1⟩, .noChange ⟨0, 1, 256⟩, .insert 256 ⟨257, 258⟩]⟩])

theorem longText_hunk : clumpsOf .debug longText longerText 129 =
    .ok [⟨[.insert 0 ⟨0, 1⟩, .noChange ⟨0, 1, 256⟩, .insert 256 ⟨257, 258⟩]⟩] :=
  hunk_around longText _ _ (by simp [longText]) (by decide +kernel) (by decide +kernel)

/-- The bound is sharp: with 129 lines of context there can be 256 consecutive context lines in a hunk, and the parser
panics. -/
theorem C54_debug_refuted : ¬ C54_upTo .debug 129 := by
  intro h
  have hl : splitInclusive longText.flatten = longText := by decide +kernel
  have hl' : splitInclusive longerText.flatten = longerText := by decide +kernel
  obtain ⟨ccs, texts, h1, h2, h3, -⟩ := C53_partial .debug longText longerText 129
  obtain rfl := Outcome.ok_inj (h1.symm.trans longText_hunk)
  have hu : unifiedClumps .debug longText longerText 129 =
      .ok [⟨"@@ -0,256 +0,258 @@".toList, ['+', 'a', '\n'] :: (longText.map (' ' :: ·) ++ [['+', 'b', '\n']])⟩] := by
    obtain ⟨changes, ccs, e1, e2, -, e3⟩ := unifiedClumps_eq .debug longText longerText 129
    have : clumpsOf .debug longText longerText 129 = .ok ccs := by
      unfold clumpsOf
      rw [e1]
      exact e2
    obtain rfl := Outcome.ok_inj (this.symm.trans longText_hunk)
    rw [e3]
    decide +kernel
  have := h .asciiOnly longText.flatten longerText.flatten 129 (by omega) (.inr ⟨longText.flatten.dropLast, by decide +kernel⟩)
    (.inr ⟨longerText.flatten.dropLast, by decide +kernel⟩) (by decide +kernel) (by decide +kernel) _ _ (by rw [hl, hl']; exact longText_hunk)
    (by rw [hl, hl']; exact hu) 0 _ _ rfl rfl [] [] (.inl rfl) (by simp)
  revert this
  decide +kernel

/-- Without a final newline it fails in all builds: the last lines run together. -/
theorem C54_noNewline_refuted (p : Profile) :
    unifiedClumps p [['a']] [['b']] 3 = .ok [⟨"@@ -0 +0 @@".toList, [['+', 'b'], ['-', 'a'], "\n\\\n".toList]⟩] ∧
    splitInclusive (hunkText [] ⟨"@@ -0 +0 @@".toList, [['+', 'b'], ['-', 'a'], "\n\\\n".toList]⟩ []) =
      ["@@ -0 +0 @@\n".toList, "+b-a\n".toList, "\\\n".toList] ∧
    getFromAt p .asciiOnly ["@@ -0 +0 @@\n".toList, "+b-a\n".toList, "\\\n".toList] 0 = .ok (.error (.unexpectedEndClump 2)) := by
  cases p <;> decide +kernel

/-- A hunk in the middle of a text. -/
example : hunkText "diff\n".toList ⟨"@@ -0,2 +0 @@".toList, [" a\n".toList, "-b\n".toList]⟩ "@@".toList =
    "diff\n@@ -0,2 +0 @@\n a\n-b\n@@".toList := rfl

/-! ## C65 -/

/-- The unified format counts lines from 1. -/
def C65_oneBased (p : Profile) : Prop := ∀ (before after : List Str) (context : Nat) (texts : List UnifiedClumpText),
  unifiedClumps p before after context = .ok texts → ∀ t ∈ texts, ∀ (nd : Digits) (sal : StartsAndLengths),
    startsAndLengths nd t.header 0 = .ok (some sal) → 0 < sal.before.length → 1 ≤ sal.before.start

/-- The generator counts from 0. -/
theorem C65_oneBased_refuted (p : Profile) : ¬ C65_oneBased p := by
  intro h
  have := h [['a', '\n']] [['b', '\n']] 3 [⟨"@@ -0 +0 @@".toList, ["+b\n".toList, "-a\n".toList]⟩]
    (by cases p <;> decide +kernel) _ (by simp; rfl) .asciiOnly ⟨⟨0, 1⟩, ⟨0, 1⟩⟩ (by decide +kernel) (by decide)
  simp at this

/-- What the header means: the number of lines before the hunk (counted from 0) and the number of lines of the hunk, in both
files. -/
theorem C65_zeroBased_partial (p : Profile) (nd : Digits) (before after : List Str) (context k : Nat)
    (hb : before.length < 2 ^ 64) (ha : after.length < 2 ^ 64) (ccs : List ChangeClump) (texts : List UnifiedClumpText)
    (h1 : clumpsOf p before after context = .ok ccs) (h2 : unifiedClumps p before after context = .ok texts)
    (cc : ChangeClump) (t : UnifiedClumpText) (hk : ccs[k]? = some cc) (ht : texts[k]? = some t) (n : Nat) :
    startsAndLengths nd t.header n = .ok (some
      ⟨⟨cc.ranges.1.start, cc.ranges.1.fin - cc.ranges.1.start⟩, ⟨cc.ranges.2.start, cc.ranges.2.fin - cc.ranges.2.start⟩⟩) := by
  obtain ⟨changes, ccs', e1, e2, facts, e3⟩ := unifiedClumps_eq p before after context
  unfold clumpsOf at h1
  rw [e1] at h1
  obtain rfl := Outcome.ok_inj (e2.symm.trans h1)
  obtain rfl := Outcome.ok_inj (e3.symm.trans h2)
  rw [List.getElem?_map, hk] at ht
  injection ht with ht
  subst ht
  have f := facts cc (List.mem_of_getElem? hk)
  have g1 := f.inside1
  have g2 := f.inside2
  have g3 := f.tiles.le
  have := C50_roundTrip nd cc.header [] n (by simp only [ChangeClump.header]; omega) (by simp only [ChangeClump.header]; omega)
    (by simp only [ChangeClump.header]; omega) (by simp only [ChangeClump.header]; omega) ⟨[], [], [], rfl, by simp, by simp, .inl rfl⟩
  rw [List.append_nil] at this
  exact this

/-! ## C68 -/

/-- Where lines are replaced, the removed lines come before the added ones. -/
def C68_removedFirst (p : Profile) : Prop := ∀ (before after : List Str) (context : Nat) (texts : List UnifiedClumpText),
  unifiedClumps p before after context = .ok texts → ∀ t ∈ texts, ∀ (pre post : List Str) (x y : Str),
    t.lines = pre ++ x :: y :: post → isAdded x = true → isRemoved y = false

/-- This is not so when at least as many lines are removed as added. -/
theorem C68_removedFirst_refuted (p : Profile) : ¬ C68_removedFirst p := by
  intro h
  have := h [['a', '\n']] [['b', '\n']] 3 [⟨"@@ -0 +0 @@".toList, ["+b\n".toList, "-a\n".toList]⟩]
    (by cases p <;> decide +kernel) _ (by simp; rfl) [] [] "+b\n".toList "-a\n".toList rfl (by decide)
  revert this
  decide

/-- What holds: the lines of a replacement stand together, the removed lines first exactly if they are fewer. -/
theorem C68_order_partial (p : Profile) (before after : List Str) (context k : Nat) (ccs : List ChangeClump)
    (texts : List UnifiedClumpText) (h1 : clumpsOf p before after context = .ok ccs)
    (h2 : unifiedClumps p before after context = .ok texts) (cc : ChangeClump) (t : UnifiedClumpText)
    (hk : ccs[k]? = some cc) (ht : texts[k]? = some t) (r s : Range) (hr : .replace r s ∈ cc.changes) :
    ∃ pre removed added post, unmark removed = cut before r.start r.fin ∧ unmark added = cut after s.start s.fin ∧
      (∀ l ∈ removed, isRemoved l = true) ∧ (∀ l ∈ added, isAdded l = true) ∧
      t.lines = pre ++ (if removed.length < added.length then removed ++ added else added ++ removed) ++ post := by
  obtain ⟨changes, ccs', e1, e2, facts, e3⟩ := unifiedClumps_eq p before after context
  unfold clumpsOf at h1
  rw [e1] at h1
  obtain rfl := Outcome.ok_inj (e2.symm.trans h1)
  obtain rfl := Outcome.ok_inj (e3.symm.trans h2)
  rw [List.getElem?_map, hk] at ht
  injection ht with ht
  subst ht
  have f := facts cc (List.mem_of_getElem? hk)
  have hle := f.tiles.mem_le hr
  have g1 := f.inside1
  have g2 := f.inside2
  simp only [Change.old, Change.new] at hle
  obtain ⟨cs1, cs2, hcs⟩ := List.append_of_mem hr
  obtain ⟨tail, htail⟩ : ∃ tail, closed (textOf before after cc.changes) = textOf before after cc.changes ++ tail := by
    unfold closed
    split
    · exact ⟨[], by simp⟩
    · exact ⟨_, rfl⟩
  refine ⟨textOf before after cs1, markedLines '-' before r, markedLines '+' after s, textOf before after cs2 ++ tail,
    unmark_marked .., unmark_marked .., ?_, ?_, ?_⟩
  · intro l hl
    obtain ⟨y, -, rfl⟩ := mem_markedLines hl
    rfl
  · intro l hl
    obtain ⟨y, -, rfl⟩ := mem_markedLines hl
    rfl
  · have hlen : ∀ {m : Char} {l : List Str} {r : Range}, r.fin ≤ l.length → (markedLines m l r).length = r.len := by
      intro m l r h
      simp only [markedLines, List.length_map, length_cut l _ _ h, Range.len]
      split <;> omega
    dsimp only
    rw [htail, hcs, textOf_append, textOf_cons, hlen (by omega), hlen (by omega)]
    simp only [Change.text, List.append_assoc]

/-- One line is replaced by two. -/
example : unifiedClumps .debug [['a', '\n']] [['b', '\n'], ['c', '\n']] 1 =
    .ok [⟨"@@ -0 +0,2 @@".toList, ["-a\n".toList, "+b\n".toList, "+c\n".toList]⟩] := by decide +kernel

example (n : Nat) := C65_zeroBased_partial .debug .asciiOnly [['a', '\n']] [['b', '\n'], ['c', '\n']] 1 0 (by decide) (by decide)
  (match clumpsOf .debug [['a', '\n']] [['b', '\n'], ['c', '\n']] 1 with | .ok ccs => ccs | _ => []) _ (by decide +kernel)
  (show unifiedClumps .debug [['a', '\n']] [['b', '\n'], ['c', '\n']] 1 =
    .ok [⟨"@@ -0 +0,2 @@".toList, ["-a\n".toList, "+b\n".toList, "+c\n".toList]⟩] by decide +kernel) _ _ rfl rfl n

end PwDiff
