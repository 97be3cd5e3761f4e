import Verif.Props.Joined
import Verif.Proofs.UnifiedBack

/-! # C122: applying a patch again after it has failed -/

namespace PwDiff

/-- What one may expect: if clumps of a patch could not be applied to a text, they can as little be applied when the patch is
applied once more, to the result. -/
def C122_statement : Prop :=
  ∀ (p : Profile) (before after : List Str) (context : Nat) (cs : List (DiffClump Str)), context ≤ 255 →
    diffClumps p before after context = .ok cs →
    ∀ (s u : Str) (st st' : Statistics) (out : List UInt8), (applyInto p cs (splitInclusive s) false).run = (.ok st, u.bytes) →
      (applyInto p cs (splitInclusive u) false).run = (.ok st', out) → st.failed ≤ st'.failed

/-- The lines of the result if the only clump of a patch has failed. -/
def failedLines (c : DiffClump Str) (l : List Str) : List Str :=
  marker '<' :: c.before.items ++ marker '=' :: c.after.items ++ marker '>' :: l

theorem bytesOf_failedLines (c : DiffClump Str) (l : List Str) :
    bytesOf (failedLines c l) = conflict c.before.items c.after.items ++ bytesOf l := by
  have h : ∀ x : Char, x = '<' ∨ x = '=' ∨ x = '>' → (marker x).bytes = markerLine x := by
    rintro x (rfl | rfl | rfl) <;> decide +kernel
  simp only [failedLines, bytesOf, conflict, List.flatMap_append, List.flatMap_cons, List.append_assoc, List.cons_append]
  rw [show (Item.bytes (marker '<')) = markerLine '<' from h _ (.inl rfl), show (Item.bytes (marker '=')) = markerLine '=' from h _ (.inr (.inl rfl)),
    show (Item.bytes (marker '>')) = markerLine '>' from h _ (.inr (.inr rfl))]

/-- The old lines stand in it after the first marker. -/
theorem failedLines_stands (c : DiffClump Str) (l : List Str) : StandsAt c.before.items (failedLines c l) 1 :=
  ⟨[marker '<'], marker '=' :: c.after.items ++ marker '>' :: l, by simp [failedLines], rfl⟩

/-- A patch of one clump that has failed on a text. -/
theorem failed_output (p : Profile) (c : DiffClump Str) (l : List Str) (hw : c.WellFormed)
    (hsz : l.length + weight [c] < sizeLimit) (st : Statistics) (out : List UInt8)
    (h : (applyInto p [c] l false).run = (.ok st, out)) (hf : st.failed ≠ 0) : out = bytesOf (failedLines c l) := by
  rw [C57_refines p l [c] (by simpa using hw) hsz] at h
  rw [bytesOf_failedLines]
  generalize hr : Outcome.ok st = r at h
  cases h with
  | crash _ => cases hr
  | apply h1 h2 h3 =>
    subst hr
    cases h3 with
    | finish _ => simp [Decision.count] at hf; split at hf <;> simp at hf
  | applyPanic _ _ => cases hr
  | already h1 h3 =>
    subst hr
    cases h3 with
    | finish _ => simp [Decision.count] at hf; split at hf <;> simp at hf
  | failed h1 h3 =>
    subst hr
    cases h3 with
    | finish _ => rw [cut_full]

theorem StandsAt.within {T : Type} {ls l : List T} {pos : Int} (h : StandsAt ls l pos) : 0 ≤ pos ∧ pos + ls.length ≤ l.length := by
  obtain ⟨pre, post, rfl, rfl⟩ := h
  simp only [List.length_append]
  omega

/-- Where the old lines of a clump stand after the first line, with enough lines after them, the clump does not fail. -/
theorem patching_found {T : Type} [Item T] {p : Profile} {c : DiffClump T} {l : List T} {out : List UInt8} {r : Outcome Statistics}
    (hwf : c.WellFormed) (h1 : StandsAt c.before.items l 1) (h2 : c.before.items.length + 2 ≤ l.length) (h : Patching p l 0 0 {} [c] out r) :
    (r = .panic ∧ 1 < max c.contextLengths.1 c.contextLengths.2) ∨ ∃ st, r = .ok st ∧ st.failed = 0 ∧ st.clean + st.fuzzy = 1 := by
  have hlim : coreLen c.contextLengths c.before ≤ c.before.items.length := by unfold coreLen; omega
  have hnone : FitsHere l 0 c.contextLengths c.before none →
      ¬ Searched l 0 0 c.contextLengths c.before (Option.map DiffClump.before [].head?) none := by
    intro hf hn
    by_cases hs : c.before.start = 1
    · refine hf.1 ?_
      rw [hs]
      exact h1
    · refine (hn (1 - c.before.start) ?_).1 ?_
      · simp only [InBounds, searchLimit, searchRoom, List.head?_nil, Option.map_none]
        omega
      · rw [show (c.before.start : Int) + 0 + (1 - c.before.start) = 1 by omega]
        exact h1
  have hunder : ¬ Underflow l c.contextLengths c.before (Option.map DiffClump.before [].head?) 0 := by
    simp only [Underflow, searchRoom, List.head?_nil, Option.map_none]
    omega
  cases h with
  | crash hc =>
    rcases hc.2.2 with h | ⟨-, h, -⟩
    · exact absurd h hunder
    · exact absurd h (hnone hc.2.1)
  | @apply _ _ _ _ _ d w ls _ _ hd hw hrest =>
    cases hrest with
    | finish _ =>
      refine .inr ⟨_, rfl, ?_⟩
      simp only [Decision.count]
      split <;> simp
    | overrun ho =>
      exfalso
      have hfit : Fits c.before.items c.contextLengths l (c.before.start + 0 + d) (some w) := by
        rcases hd with ⟨rfl, hd⟩ | ⟨-, -, hd⟩
        · have := show Fits _ _ _ _ _ from hd
          simpa using this
        · exact hd.2.1
      rw [Int.zero_add] at ho
      cases w with
      | cleanly =>
        have := StandsAt.within hfit
        simp only [placeOf, coveredBy, WillApply.redn] at ho
        omega
      | withReductions r =>
        obtain ⟨-, k, -, -, hr, hst, -⟩ := hfit
        have := hst.within
        have hb := hwf.ctxBefore
        have hr1 : r.1 + r.2 ≤ c.before.items.length := by rw [hr]; simp only [redn]; omega
        rw [length_trim _ _ hr1] at this
        simp only [placeOf, coveredBy, WillApply.redn] at ho
        omega
  | @applyPanic _ _ _ _ _ _ w hd hw =>
    left
    refine ⟨rfl, ?_⟩
    have hfit : ∃ pos, Fits c.before.items c.contextLengths l pos (some w) := by
      rcases hd with ⟨rfl, hd⟩ | ⟨-, -, hd⟩
      · exact ⟨_, hd⟩
      · exact ⟨_, hd.2.1⟩
    obtain ⟨pos, hfit⟩ := hfit
    cases w with
    | cleanly => cases hw
    | withReductions r =>
      obtain ⟨-, k, h1, h2, -⟩ := hfit
      omega
  | already hd _ => exact absurd hd.2.2.1 (hnone hd.1)
  | failed hd _ => exact absurd hd.2.2.1 (hnone hd.1)

/-- What is true instead, for a patch of one clump of whole lines: where it has failed it never fails again, since its old lines now
stand between the markers. If the patch is applied to the result, it finds them there (or nearer to the expected place) and changes them;
this cannot even panic if there is at most one line of context. (For patches of several clumps see C140 and C142.) -/
theorem C122_partial (p : Profile) (c : DiffClump Str) (s : Str) (hwf : c.WellFormed) (hb : ∀ l ∈ c.before.items, WholeLine l)
    (ha : ∀ l ∈ c.after.items, WholeLine l) (hsz : (splitInclusive s).length + 2 * weight [c] + 3 < sizeLimit) (st : Statistics)
    (out : List UInt8) (h : (applyInto p [c] (splitInclusive s) false).run = (.ok st, out)) (hf : st.failed ≠ 0) :
    ∃ u : Str, out = u.bytes ∧ splitInclusive u = failedLines c (splitInclusive s) ∧
      (∀ st' out', (applyInto p [c] (splitInclusive u) false).run = (.ok st', out') → st'.failed = 0 ∧ st'.clean + st'.fuzzy = 1) ∧
      (max c.contextLengths.1 c.contextLengths.2 ≤ 1 → ∃ st' out', (applyInto p [c] (splitInclusive u) false).run = (.ok st', out')) := by
  have hw : ∀ d ∈ [c], d.WellFormed := by simpa using hwf
  have hout := failed_output p c _ hwf (by omega) st out h hf
  have hmark : ∀ x : Char, x = '<' ∨ x = '=' ∨ x = '>' → WholeLine (marker x) := by
    rintro x (rfl | rfl | rfl) <;> exact ⟨_, rfl, by decide⟩
  have hlines : splitInclusive (failedLines c (splitInclusive s)).flatten = failedLines c (splitInclusive s) := by
    have h0 := splitInclusive_flatten (ls := marker '<' :: c.before.items ++ marker '=' :: c.after.items ++ [marker '>']) (by
      intro l hl
      simp only [List.cons_append, List.mem_cons, List.mem_append, List.not_mem_nil, or_false] at hl
      rcases hl with rfl | (hl | rfl | hl) | rfl
      · exact hmark _ (.inl rfl)
      · exact hb _ hl
      · exact hmark _ (.inr (.inl rfl))
      · exact ha _ hl
      · exact hmark _ (.inr (.inr rfl))) s
    have h1 : failedLines c (splitInclusive s) =
        (marker '<' :: c.before.items ++ marker '=' :: c.after.items ++ [marker '>']) ++ splitInclusive s := by
      simp [failedLines]
    rw [h1, List.flatten_append, flatten_splitInclusive, h0]
  have hlen : (failedLines c (splitInclusive s)).length = c.before.items.length + c.after.items.length + (splitInclusive s).length + 3 := by
    simp only [failedLines, List.length_cons, List.length_append]
    omega
  have hrun := C57_refines p (failedLines c (splitInclusive s)) [c] hw (by simp only [weight] at hsz ⊢; omega)
  refine ⟨(failedLines c (splitInclusive s)).flatten, ?_, hlines, ?_, ?_⟩
  · rw [hout]; exact flatMap_bytes _
  · intro st' out' h'
    rw [hlines, hrun] at h'
    rcases patching_found hwf (failedLines_stands _ _) (by omega) h' with ⟨h1, -⟩ | ⟨st1, h1, h2⟩
    · cases h1
    · cases h1
      exact h2
  · intro hctx
    rw [hlines]
    have h' := (hrun _ _).1 rfl
    rcases patching_found hwf (failedLines_stands _ _) (by omega) h' with ⟨-, h1⟩ | ⟨st1, h1, -⟩
    · omega
    · exact ⟨st1, _, Prod.ext h1 rfl⟩

/-- The patch that changes `a` into `b`. -/
def aToB : DiffClump Str := ⟨(0, 0), ⟨0, [ln 'a']⟩, ⟨0, [ln 'b']⟩⟩

example : diffClumps .debug [ln 'a'] [ln 'b'] 3 = .ok [aToB] := by decide +kernel
/-- It fails on the file `x`, and is then applied to its own old line between the markers. -/
theorem aToB_twice :
    (applyInto .debug [aToB] (splitInclusive "x\n".toList) false).run =
      (.ok { failed := 1 }, Str.bytes "<<<<<<<\na\n=======\nb\n>>>>>>>\nx\n".toList) ∧
    (applyInto .debug [aToB] (splitInclusive "<<<<<<<\na\n=======\nb\n>>>>>>>\nx\n".toList) false).run =
      (.ok { fuzzy := 1 }, Str.bytes "<<<<<<<\nb\n=======\nb\n>>>>>>>\nx\n".toList) := by
  decide +kernel
example : aToB.WellFormed := ⟨by decide, by decide, by decide, by decide⟩

/-- The expectation is false: the second run of the program finds nothing wrong. -/
theorem C122_refuted : ¬ C122_statement := by
  intro h
  have := h .debug [ln 'a'] [ln 'b'] 3 [aToB] (by decide) (by decide +kernel) _ _ _ _ _ aToB_twice.1 aToB_twice.2
  exact absurd this (by decide)

end PwDiff
