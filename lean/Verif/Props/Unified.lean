import Verif.Proofs.UnifiedPath
import Verif.Proofs.UnifiedParse

/-! # C50–C52, C55, C63, C64, C66, C67: parsing unified diffs -/

namespace PwDiff

variable {nd : Digits}

/-! ## C50 -/

theorem decimal_number (nd : Digits) (n : Nat) : Number nd (decimal n) :=
  ⟨Nat.toDigits_ne_nil, fun c hc => by
    have h := Nat.isDigit_of_mem_toDigits (by omega) (by omega) hc
    have h' := h
    simp only [Char.isDigit, Bool.and_eq_true, decide_eq_true_eq] at h'
    have h1 : c.toNat ≤ 57 := h'.2
    rw [nd.ascii c (by omega), h]⟩

theorem decimal_numeral (n : Nat) : Numeral (decimal n) n :=
  ⟨Nat.toDigits_ne_nil, fun _ hc => Nat.isDigit_of_mem_toDigits (by omega) (by omega) hc, Nat.ofDigitChars_ten_toDigits⟩

/-- What is written for a length: nothing for 1. -/
def writtenLength (n : Nat) : Option Str := if n = 1 then none else some (decimal n)

theorem display_header (nd : Digits) (s : StartsAndLengths) (tail : Str) (ht : Rest tail) :
    HeaderLine nd (decimal s.before.start) (writtenLength s.before.length) (decimal s.after.start)
      (writtenLength s.after.length) (s.display ++ tail) := by
  refine ⟨[' '], [' '], [' '], tail, ?_, ⟨by simp, by decide⟩, ⟨by simp, by decide⟩, ⟨by simp, by decide⟩,
    decimal_number nd _, decimal_number nd _, ?_, ?_, ht⟩
  · unfold StartsAndLengths.display writtenLength
    split <;> split <;> simp [comma]
  · intro e he
    unfold writtenLength at he
    split at he
    · cases he
    · injection he with he
      exact he ▸ decimal_number nd _
  · intro e he
    unfold writtenLength at he
    split at he
    · cases he
    · injection he with he
      exact he ▸ decimal_number nd _

theorem written_means (s : StartAndLength) (h1 : s.start < 2 ^ 64) (h2 : s.length < 2 ^ 64) :
    SideMeans (decimal s.start) (writtenLength s.length) s := by
  refine ⟨decimal_numeral _, h1, h2, ?_⟩
  unfold writtenLength
  split
  · exact .inl ⟨rfl, by assumption⟩
  · exact .inr ⟨_, rfl, decimal_numeral _⟩

theorem display_announces (nd : Digits) (s : StartsAndLengths) (tail : Str) (h1 : s.before.start < 2 ^ 64)
    (h2 : s.before.length < 2 ^ 64) (h3 : s.after.start < 2 ^ 64) (h4 : s.after.length < 2 ^ 64) (ht : Rest tail) :
    Announces nd (s.display ++ tail) s :=
  ⟨_, _, _, _, display_header nd s tail ht, written_means _ h1 h2, written_means _ h3 h4⟩

/-- Parsing the displayed form of a hunk header, with anything a header line may have after it, gives back the starts and
lengths. -/
theorem C50_roundTrip (nd : Digits) (s : StartsAndLengths) (tail : Str) (k : Nat) (h1 : s.before.start < 2 ^ 64)
    (h2 : s.before.length < 2 ^ 64) (h3 : s.after.start < 2 ^ 64) (h4 : s.after.length < 2 ^ 64) (ht : Rest tail) :
    startsAndLengths nd (s.display ++ tail) k = .ok (some s) :=
  (display_announces nd s tail h1 h2 h3 h4 ht).starts k

example : Rest " fn main() {\n".toList :=
  ⟨[' '], "fn main() {".toList, ['\n'], rfl, by decide, by decide, .inr rfl⟩
example : (StartsAndLengths.display ⟨⟨7, 1⟩, ⟨0, 12⟩⟩) = "@@ -7 +0,12 @@".toList := by decide +kernel
example : startsAndLengths .asciiOnly "@@ -7 +0,12 @@ fn main() {\n".toList 3 = .ok (some ⟨⟨7, 1⟩, ⟨0, 12⟩⟩) := by decide +kernel

/-! ## C64 -/

/-- White space is the Unicode property White_Space: these 25 characters. -/
theorem C64_whiteSpace (c : Char) : isWhite c = true ↔ c.toNat ∈
    [9, 10, 11, 12, 13, 0x20, 0x85, 0xA0, 0x1680, 0x2000, 0x2001, 0x2002, 0x2003, 0x2004, 0x2005, 0x2006, 0x2007, 0x2008,
      0x2009, 0x200A, 0x2028, 0x2029, 0x202F, 0x205F, 0x3000] := by
  unfold isWhite
  simp only [Bool.or_eq_true, Bool.and_eq_true, decide_eq_true_eq, beq_iff_eq, List.mem_cons, List.not_mem_nil, or_false]
  omega

example : isWhite '\t' = true ∧ isWhite 'x' = false := by decide

/-- A line is taken for a hunk header exactly if it has the form of one; the starts and lengths are what the numbers mean,
and if they mean nothing (too large, or digits that are not ASCII) the error names the line. -/
theorem C64_headers (nd : Digits) (l : Str) (k : Nat) (r : ParseResult (Option StartsAndLengths)) :
    startsAndLengths nd l k = r ↔
      (¬ IsHeader nd l ∧ r = .ok none) ∨
      (∃ s, Announces nd l s ∧ r = .ok (some s)) ∨
      (IsHeader nd l ∧ (∀ s, ¬ Announces nd l s) ∧ r = .error (.parseNumberError k)) := by
  constructor
  · rintro rfl
    rcases startsAndLengths_cases (nd := nd) l k with ⟨h1, e⟩ | ⟨h1, h2, e⟩ | ⟨s, h1, e⟩
    · exact .inl ⟨h1, e⟩
    · exact .inr (.inr ⟨h1, h2, e⟩)
    · exact .inr (.inl ⟨s, h1, e⟩)
  · have isHeader : ∀ {s}, Announces nd l s → IsHeader nd l := fun ⟨d1, e1, d2, e2, h, _⟩ => ⟨d1, e1, d2, e2, h⟩
    rcases startsAndLengths_cases (nd := nd) l k with ⟨h1, e⟩ | ⟨h1, h2, e⟩ | ⟨s, h1, e⟩
    · rintro (⟨-, rfl⟩ | ⟨s, h, rfl⟩ | ⟨h, -, -⟩)
      · exact e
      · exact absurd (isHeader h) h1
      · exact absurd h h1
    · rintro (⟨h, -⟩ | ⟨s, h, -⟩ | ⟨-, -, rfl⟩)
      · exact absurd h1 h
      · exact absurd h (h2 s)
      · exact e
    · rintro (⟨h, -⟩ | ⟨s', h, rfl⟩ | ⟨-, h, -⟩)
      · exact absurd (isHeader h1) h
      · exact h.starts k
      · exact absurd h1 (h s)

/-- All three results occur: a header, a line that is not one, a number that does not fit. -/
example : startsAndLengths .asciiOnly "@@\t-01,2  +3 @@".toList 5 = .ok (some ⟨⟨1, 2⟩, ⟨3, 1⟩⟩) ∧
    startsAndLengths .asciiOnly "@@ -1,+3 @@".toList 5 = .ok none ∧
    startsAndLengths .asciiOnly "@@ -18446744073709551616 +3 @@".toList 5 = .error (.parseNumberError 5) := by
  decide +kernel

/-! ## C63 -/

/-- What `get_from_at` does is what the description `Parses` says, for all lines and all start indices. -/
theorem C63_described (p : Profile) (nd : Digits) (lines : List Str) (start : Nat)
    (o : Outcome (ParseResult (Option UnifiedDiffClump))) : getFromAt p nd lines start = o ↔ Parses p nd lines start o := by
  constructor
  · rintro rfl
    obtain ⟨o, h⟩ := Parses.total (nd := nd) p lines start
    rwa [h.eq]
  · exact Parses.eq

/-- The claim that parsing never panics. -/
def C63_neverPanics (p : Profile) : Prop :=
  ∀ (nd : Digits) (lines : List Str) (start : Nat), start ≤ lines.length → getFromAt p nd lines start ≠ .panic

/-- A backslash line after an empty hunk makes it panic in every build. -/
theorem C63_neverPanics_refuted (p : Profile) : ¬ C63_neverPanics p := by
  intro h
  refine h .asciiOnly ["@@ -0,0 +0,0 @@".toList, ['\\']] 0 (by simp) ?_
  cases p <;> decide +kernel

/-- In release builds `get_from_at` panics exactly if the start index lies outside of the lines, or the header announces no
lines at all and a backslash line follows. -/
theorem C63_release (nd : Digits) (lines : List Str) (start : Nat) :
    getFromAt .release nd lines start = .panic ↔
      lines.length < start ∨ ∃ pre l x rest sal, lines = pre ++ l :: x :: rest ∧ pre.length = start ∧ Announces nd l sal ∧
        sal.before.length = 0 ∧ sal.after.length = 0 ∧ x.head? = some '\\' := by
  constructor
  · intro h
    rw [C63_described] at h
    generalize ho : Outcome.panic = o at h
    cases h <;> try cases ho
    · exact .inl (by assumption)
    · rename_i hd _ _; cases hd
    · exact .inr ⟨_, _, _, _, _, rfl, rfl, by assumption, (by assumption : _ ∧ _).1, (by assumption : _ ∧ _).2, by assumption⟩
  · rintro (h | ⟨pre, l, x, rest, sal, rfl, rfl, h1, h2, h3, h4⟩)
    · exact (Parses.beyond h).eq
    · exact (Parses.markAlone h1 ⟨h2, h3⟩ h4).eq

/-- In debug builds it also panics at the 256th of consecutive context lines of a hunk. -/
theorem C63_debug (nd : Digits) (lines : List Str) (start : Nat) :
    getFromAt .debug nd lines start = .panic ↔
      getFromAt .release nd lines start = .panic ∨
      ∃ pre l body x rest sal, lines = pre ++ l :: (body ++ x :: rest) ∧ pre.length = start ∧ Announces nd l sal ∧
        (∀ y ∈ body, isBody y = true) ∧ ¬ Enough sal body ∧ ShortRuns body ∧ endRun body = 255 ∧ isContext x = true := by
  rw [C63_release]
  constructor
  · intro h
    rw [C63_described] at h
    generalize ho : Outcome.panic = o at h
    cases h <;> try cases ho
    · exact .inl (.inl (by assumption))
    · rename_i pre l sal body x rest h1 hp hx hr hd
      exact .inr ⟨_, _, _, _, _, _, rfl, rfl, h1, hp.lines, hp.short, hp.runs rfl, by assumption, by assumption⟩
    · exact .inl (.inr ⟨_, _, _, _, _, rfl, rfl, by assumption, (by assumption : _ ∧ _).1, (by assumption : _ ∧ _).2, by assumption⟩)
  · rintro ((h | ⟨pre, l, x, rest, sal, rfl, rfl, h1, h2, h3, h4⟩) | ⟨pre, l, body, x, rest, sal, rfl, rfl, h1, h2, h3, h4, h5, h6⟩)
    · exact (Parses.beyond h).eq
    · exact (Parses.markAlone h1 ⟨h2, h3⟩ h4).eq
    · exact (Parses.overflow h1 ⟨h2, h3, fun _ => h4⟩ rfl h6 h5).eq

/-- The second alternative occurs: 256 context lines under a header that announces them. -/
example : getFromAt .debug .asciiOnly ("@@ -1,256 +1,256 @@".toList :: List.replicate 256 [' ']) 0 = .panic := by decide +kernel

/-! ## C51 -/

/-- The lines of a clump are exactly as many as the header announces. -/
def C51_exact (p : Profile) : Prop := ∀ (nd : Digits) (lines : List Str) (start : Nat) (c : UnifiedDiffClump),
  getFromAt p nd lines start = .ok (.ok (some c)) →
    c.beforeLines.length = c.startsAndLengths.before.length ∧ c.afterLines.length = c.startsAndLengths.after.length

/-- It is possible to read more lines of one kind than the header announces. -/
theorem C51_exact_refuted (p : Profile) : ¬ C51_exact p := by
  intro h
  have := h .asciiOnly ["@@ -0,0 +1 @@".toList, ['-', 'a'], ['+', 'b']] 0
    ⟨⟨⟨0, 0⟩, ⟨1, 1⟩⟩, [['-', 'a']], [['+', 'b']], (0, 0), 3⟩ (by cases p <;> decide +kernel)
  simp at this

theorem filter_snoc_length {α : Type} (f : α → Bool) (xs : List α) (x : α) :
    ((xs ++ [x]).filter f).length = (xs.filter f).length + if f x then 1 else 0 := by
  rw [List.filter_append, List.length_append]
  by_cases h : f x <;> simp [h]

theorem trimmed_length (ls : List Str) : (trimmed ls).length = ls.length := by
  unfold trimmed
  cases h : ls.getLast? with
  | none =>
    rw [List.getLast?_eq_none_iff] at h
    subst h
    rfl
  | some x =>
    have : ls ≠ [] := by rintro rfl; simp at h
    have := List.length_pos_iff.mpr this
    simp
    omega

/-- In the lines of a hunk at least one of the two counts is exact. -/
theorem IsHunk.one_exact {p : Profile} {sal : StartsAndLengths} {body : List Str} (h : IsHunk p sal body) :
    (body.filter isOld).length = sal.before.length ∨ (body.filter isNew).length = sal.after.length := by
  have he := h.enough
  rcases h.least with rfl | hl
  · unfold Enough at he
    simp at he ⊢
    omega
  · have hne : body ≠ [] := by rintro rfl; exact hl he
    obtain ⟨ys, y, rfl⟩ : ∃ ys y, body = ys ++ [y] := ⟨_, _, (List.dropLast_concat_getLast hne).symm⟩
    rw [List.dropLast_concat] at hl
    unfold Enough at hl he
    rw [filter_snoc_length, filter_snoc_length] at he
    rw [filter_snoc_length, filter_snoc_length]
    split <;> split <;> simp_all only [if_true, if_false, Bool.false_eq_true] <;> omega

/-- The clump that `get_from_at` returns, from the lines it was read from. -/
structure ReadFrom (p : Profile) (nd : Digits) (lines : List Str) (start : Nat) (c : UnifiedDiffClump) (body rest : List Str) :
    Prop where
  hunk : IsHunk p c.startsAndLengths body
  place : ∃ pre l, lines = pre ++ l :: (body ++ rest) ∧ pre.length = start ∧ Announces nd l c.startsAndLengths
  old : c.beforeLines = body.filter isOld ∨ (¬ NoMark rest ∧ c.beforeLines = trimmed (body.filter isOld))
  new : c.afterLines = body.filter isNew ∨ (¬ NoMark rest ∧ c.afterLines = trimmed (body.filter isNew))
  context : c.contextLengths = (leadContext body % 256, trailContext body % 256)
  consumed : (NoMark rest ∧ c.linesConsumed = body.length + 1) ∨ (¬ NoMark rest ∧ c.linesConsumed = body.length + 2)

theorem readFrom {p : Profile} {lines : List Str} {start : Nat} {c : UnifiedDiffClump}
    (h : getFromAt p nd lines start = .ok (.ok (some c))) : ∃ body rest, ReadFrom p nd lines start c body rest := by
  rw [C63_described] at h
  have mark : ∀ {x : Str} {r : List Str}, x.head? = some '\\' → ¬ NoMark (x :: r) := fun hx hm => hm _ _ rfl hx
  generalize ho : Outcome.ok (Except.ok (some c)) = o at h
  cases h <;> try cases ho
  · exact ⟨_, _, ‹_›, ⟨_, _, rfl, rfl, ‹_›⟩, .inl rfl, .inl rfl, rfl, .inl ⟨‹_›, rfl⟩⟩
  · rename_i hx hy _
    exact ⟨_, _, ‹_›, ⟨_, _, rfl, rfl, ‹_›⟩, .inl rfl, .inr ⟨mark hx, rfl⟩, rfl, .inr ⟨mark hx, rfl⟩⟩
  · rename_i hx hy _
    exact ⟨_, _, ‹_›, ⟨_, _, rfl, rfl, ‹_›⟩, .inr ⟨mark hx, rfl⟩, .inl rfl, rfl, .inr ⟨mark hx, rfl⟩⟩

theorem ReadFrom.lengths {p : Profile} {lines : List Str} {start : Nat} {c : UnifiedDiffClump} {body rest : List Str}
    (h : ReadFrom p nd lines start c body rest) :
    c.beforeLines.length = (body.filter isOld).length ∧ c.afterLines.length = (body.filter isNew).length := by
  constructor
  · rcases h.old with e | ⟨-, e⟩ <;> rw [e]
    rw [trimmed_length]
  · rcases h.new with e | ⟨-, e⟩ <;> rw [e]
    rw [trimmed_length]

/-- When `get_from_at` returns a clump, the lines it says it consumed lie inside of the input; the clump has at least as
many old and new lines as the header announces, and exactly as many on one side at least. -/
theorem C51_counts (p : Profile) (nd : Digits) (lines : List Str) (start : Nat) (c : UnifiedDiffClump)
    (h : getFromAt p nd lines start = .ok (.ok (some c))) :
    1 ≤ c.linesConsumed ∧ start + c.linesConsumed ≤ lines.length ∧
    c.startsAndLengths.before.length ≤ c.beforeLines.length ∧ c.startsAndLengths.after.length ≤ c.afterLines.length ∧
    (c.beforeLines.length = c.startsAndLengths.before.length ∨ c.afterLines.length = c.startsAndLengths.after.length) := by
  obtain ⟨body, rest, hr⟩ := readFrom h
  obtain ⟨pre, l, rfl, rfl, ha⟩ := hr.place
  have he := hr.hunk.enough
  unfold Enough at he
  rw [hr.lengths.1, hr.lengths.2]
  refine ⟨?_, ?_, he.1, he.2, hr.hunk.one_exact⟩
  · rcases hr.consumed with ⟨-, e⟩ | ⟨-, e⟩ <;> omega
  · simp only [List.length_append, List.length_cons]
    rcases hr.consumed with ⟨-, e⟩ | ⟨hm, e⟩
    · omega
    · have : rest ≠ [] := by rintro rfl; exact hm (fun _ _ h => nomatch h)
      have := List.length_pos_iff.mpr this
      omega

/-- If the lines after a header begin with lines of a hunk that have the announced counts, then exactly these lines are
read. -/
theorem C51_wellFormed (p : Profile) (nd : Digits) (pre : List Str) (l : Str) (body rest : List Str) (c : UnifiedDiffClump)
    (hb : ∀ x ∈ body, isBody x = true) (h : getFromAt p nd (pre ++ l :: (body ++ rest)) pre.length = .ok (.ok (some c)))
    (h1 : (body.filter isOld).length = c.startsAndLengths.before.length)
    (h2 : (body.filter isNew).length = c.startsAndLengths.after.length) :
    ReadFrom p nd (pre ++ l :: (body ++ rest)) pre.length c body rest ∧
    c.beforeLines.length = c.startsAndLengths.before.length ∧ c.afterLines.length = c.startsAndLengths.after.length := by
  obtain ⟨body', rest', hr⟩ := readFrom h
  obtain ⟨pre', l', e, el, ha⟩ := hr.place
  obtain ⟨rfl, e2⟩ := List.append_inj e el.symm
  injection e2 with e3 e4
  have he := hr.hunk.enough
  unfold Enough at he
  have hbb : ∀ xs : List Str, (∀ x ∈ xs, isBody x = true) → (xs.filter isOld).length = 0 → (xs.filter isNew).length = 0 → xs = [] := by
    intro xs hx g1 g2
    cases xs with
    | nil => rfl
    | cons x xs =>
      have := hx x (by simp)
      unfold isBody at this
      simp only [List.filter_cons] at g1 g2
      rw [Bool.or_eq_true] at this
      rcases this with h | h
      · rw [if_pos h] at g1; simp at g1
      · rw [if_pos h] at g2; simp at g2
  have hbody : body' = body := by
    rcases List.append_eq_append_iff.mp e4 with ⟨as, e5, e6⟩ | ⟨bs, e5, e6⟩
    · -- `body` is shorter
      by_cases has : as = []
      · simp [e5, has]
      · exfalso
        rcases hr.hunk.least with g | g
        · rw [g] at e5; exact has (by simpa using (List.append_eq_nil_iff.mp e5.symm).2)
        · apply g
          rw [e5, List.dropLast_append_of_ne_nil has]
          exact Enough.mono ⟨by omega, by omega⟩
    · have hbs : bs = [] := by
        rw [e5] at h1 h2
        simp only [List.filter_append, List.length_append] at h1 h2
        exact hbb bs (fun x hx => hb x (by simp [e5, hx])) (by omega) (by omega)
      simp [e5, hbs]
  subst hbody
  have : rest' = rest := (List.append_cancel_left e4).symm
  subst this
  refine ⟨hr, ?_, ?_⟩
  · rw [hr.lengths.1, h1]
  · rw [hr.lengths.2, h2]

/-- A hunk with a line of each kind and more input after it. -/
example : getFromAt .debug .asciiOnly ["x".toList, "@@ -1,2 +1,2 @@".toList, " a".toList, "-b".toList, "+c".toList, " d".toList] 1 =
    .ok (.ok (some ⟨⟨⟨1, 2⟩, ⟨1, 2⟩⟩, [" a".toList, "-b".toList], [" a".toList, "+c".toList], (1, 0), 4⟩)) := by decide +kernel

/-! ## C52 -/

/-- The lines of a clump are lines of the files, without the marker characters. -/
def C52_strips (p : Profile) : Prop := ∀ (nd : Digits) (l : Str) (body : List Str) (c : UnifiedDiffClump),
  (∀ x ∈ body, isBody x = true) → getFromAt p nd (l :: body) 0 = .ok (.ok (some c)) →
    c.linesConsumed = body.length + 1 →
    c.beforeLines = (body.filter isOld).map (·.drop 1) ∧ c.afterLines = (body.filter isNew).map (·.drop 1)

/-- The marker characters are kept. -/
theorem C52_strips_refuted (p : Profile) : ¬ C52_strips p := by
  intro h
  have := h .asciiOnly "@@ -1 +1 @@".toList [['-', 'a'], ['+', 'b']]
    ⟨⟨⟨1, 1⟩, ⟨1, 1⟩⟩, [['-', 'a']], [['+', 'b']], (0, 0), 3⟩ (by decide) (by cases p <;> decide +kernel) rfl
  simp [isOld, isContext] at this

/-- What is stored: the lines with their markers, in order; if a backslash line follows, the last line of one side without
the white space at its end. (Missing: the markers are not removed.) -/
theorem C52_partial (p : Profile) (nd : Digits) (lines : List Str) (start : Nat) (c : UnifiedDiffClump)
    (h : getFromAt p nd lines start = .ok (.ok (some c))) :
    ∃ pre l body rest, lines = pre ++ l :: (body ++ rest) ∧ pre.length = start ∧ (∀ x ∈ body, isBody x = true) ∧
      ((NoMark rest ∧ c.linesConsumed = body.length + 1 ∧ c.beforeLines = body.filter isOld ∧ c.afterLines = body.filter isNew) ∨
      (∃ x rest' y, rest = x :: rest' ∧ x.head? = some '\\' ∧ body.getLast? = some y ∧ c.linesConsumed = body.length + 2 ∧
        ((y.head? = some '+' ∧ c.beforeLines = body.filter isOld ∧ c.afterLines = trimmed (body.filter isNew)) ∨
         (y.head? ≠ some '+' ∧ c.beforeLines = trimmed (body.filter isOld) ∧ c.afterLines = body.filter isNew)))) := by
  rw [C63_described] at h
  generalize ho : Outcome.ok (Except.ok (some c)) = o at h
  cases h <;> try cases ho
  · rename_i ha hb hm
    exact ⟨_, _, _, _, rfl, rfl, hb.lines, .inl ⟨hm, rfl, rfl, rfl⟩⟩
  · rename_i ha hb hx hy hyn
    exact ⟨_, _, _, _, rfl, rfl, hb.lines, .inr ⟨_, _, _, rfl, hx, hy, rfl, .inl ⟨hyn, rfl, rfl⟩⟩⟩
  · rename_i ha hb hx hy hyn
    exact ⟨_, _, _, _, rfl, rfl, hb.lines, .inr ⟨_, _, _, rfl, hx, hy, rfl, .inr ⟨hyn, rfl, rfl⟩⟩⟩

example : getFromAt .debug .asciiOnly ["@@ -1 +1 @@".toList, "-b\n".toList, "+c\n".toList, "\\ No newline".toList] 0 =
    .ok (.ok (some ⟨⟨⟨1, 1⟩, ⟨1, 1⟩⟩, ["-b\n".toList], ["+c".toList], (0, 0), 4⟩)) := by decide +kernel

/-! ## C55 -/

/-- The `---` and `+++` lines never make the parser panic. -/
theorem C55_total (nd : Digits) (line : Str) :
    (∃ r, beforePathAndTimestamp nd line = .ok r) ∧ ∃ r, afterPathAndTimestamp nd line = .ok r :=
  ⟨pathAndTimestamp_total _ line, pathAndTimestamp_total _ line⟩

/-- The path, in quotes or without, followed by white space and something that does not begin with white space: the path is
found, and the time stamp if that is what follows. -/
theorem C55_written (nd : Digits) (path written w x e : Str) (hp : PathWritten path written) (hw : Spaces w)
    (hx : '\n' ∉ x) (hxw : ∀ c cs, x = c :: cs → isWhite c = false) (he : e = [] ∨ e = ['\n']) :
    ∃ stamp,
      beforePathAndTimestamp nd ("--- ".toList ++ (written ++ (w ++ (x ++ e)))) = .ok (some ⟨path, stamp⟩) ∧
      afterPathAndTimestamp nd ("+++ ".toList ++ (written ++ (w ++ (x ++ e)))) = .ok (some ⟨path, stamp⟩) ∧
      (∀ t y, x = t ++ y → Stamp nd t → stamp = some t) ∧ ((∀ t y, x = t ++ y → ¬ Stamp nd t) → stamp = none) := by
  obtain ⟨s1, a1, a2, a3⟩ := pathAndTimestamp_written (nd := nd) ['-', '-', '-', ' '] path written w x e hp hw hx hxw he
  obtain ⟨s2, b1, b2, b3⟩ := pathAndTimestamp_written (nd := nd) ['+', '+', '+', ' '] path written w x e hp hw hx hxw he
  have : s1 = s2 := by
    by_cases h : ∃ t y, x = t ++ y ∧ Stamp nd t
    · obtain ⟨t, y, h1, h2⟩ := h
      rw [a2 t y h1 h2, b2 t y h1 h2]
    · have h' : ∀ t y, x = t ++ y → ¬ Stamp nd t := fun t y h1 h2 => h ⟨t, y, h1, h2⟩
      rw [a3 h', b3 h']
  subst this
  exact ⟨s1, a1, b1, a2, a3⟩

example : PathWritten "a b".toList "\"a b\"".toList := .inl ⟨by simp, by decide, rfl⟩
example : beforePathAndTimestamp .asciiOnly "--- \"a b\"\t2024-01-02 03:04:05.123456789 +1000\n".toList =
    .ok (some ⟨"a b".toList, some "2024-01-02 03:04:05.123456789 +1000".toList⟩) := by decide +kernel
example : afterPathAndTimestamp .asciiOnly "+++ a/b.rs\tThu Feb 21 03:04:05 2024 -0330".toList =
    .ok (some ⟨"a/b.rs".toList, some "Thu Feb 21 03:04:05 2024 -0330".toList⟩) := by decide +kernel
/-- White space after the path is necessary. -/
example : beforePathAndTimestamp .asciiOnly "--- a/b.rs".toList = .ok none := by decide +kernel

/-! ## C66 -/

/-- The lines of a parsed clump can be asked for by any range inside of the announced length, in both directions. -/
theorem C66_lines (p : Profile) (nd : Digits) (lines : List Str) (start : Nat) (c : UnifiedDiffClump) (reverse : Bool) (a b : Nat)
    (h : getFromAt p nd lines start = .ok (.ok (some c))) (hab : a ≤ b)
    (hb : ∀ n, ChangeBasics.beforeLength p c reverse = .ok n → b ≤ n) :
    ∃ all, TextClump.beforeLines p c none reverse = .ok all ∧
      TextClump.beforeLines p c (some ⟨a, b⟩) reverse = .ok (cut all a b) := by
  obtain ⟨-, -, h1, h2, -⟩ := C51_counts p nd lines start c h
  have hbl := hb _ rfl
  cases reverse with
  | false =>
    refine ⟨c.beforeLines, rfl, ?_⟩
    simp only [Bool.false_eq_true, if_false] at hbl
    change slice c.beforeLines a b = _
    unfold slice
    rw [if_pos ⟨hab, by omega⟩]
    rfl
  | true =>
    refine ⟨c.afterLines, rfl, ?_⟩
    simp only [if_true] at hbl
    change slice c.afterLines a b = _
    unfold slice
    rw [if_pos ⟨hab, by omega⟩]
    rfl

/-! ## C67 -/

/-- A backslash line before the announced lines are complete is an error, so that a diff with the missing newline of the
old file marked (`-a`, `\ No newline at end of file`, `+b`) cannot be parsed. -/
theorem C67_markInside (p : Profile) (nd : Digits) (pre : List Str) (l : Str) (sal : StartsAndLengths) (body : List Str) (x : Str)
    (rest : List Str) (h : Announces nd l sal) (hb : ∀ y ∈ body, isBody y = true) (hn : ¬ Enough sal body)
    (hr : p = .debug → ShortRuns body) (hx : x.head? = some '\\') :
    getFromAt p nd (pre ++ l :: (body ++ x :: rest)) pre.length =
      .ok (.error (.unexpectedEndClump (pre.length + body.length + 1))) :=
  (Parses.badLine h ⟨hb, hn, hr⟩ (by rw [isBody_cases]; simp [hx])).eq

example : getFromAt .debug .asciiOnly ["@@ -1 +1 @@".toList, "-a\n".toList, "\\ No newline".toList, "+b\n".toList] 0 =
    .ok (.error (.unexpectedEndClump 2)) := by decide +kernel

example := C51_counts .debug .asciiOnly ["@@ -1,2 +1,3 @@\n".toList, " a\n".toList, "-b\n".toList, "+c\n".toList, "+d\n".toList] 0 _
  (show getFromAt .debug .asciiOnly _ 0 = .ok (.ok (some ⟨⟨⟨1, 2⟩, ⟨1, 3⟩⟩, [" a\n".toList, "-b\n".toList], [" a\n".toList, "+c\n".toList, "+d\n".toList], (1, 0), 5⟩)) by decide +kernel)

/-! ## C55, exactly -/

/-- Exactly which lines are taken for file headers, and what is read from them.  In particular at most one result is possible. -/
theorem C55_exact (nd : Digits) (line : Str) (r : PathAndTimestamp) :
    (beforePathAndTimestamp nd line = .ok (some r) ↔ FileHeader nd "--- ".toList line r) ∧
    (afterPathAndTimestamp nd line = .ok (some r) ↔ FileHeader nd "+++ ".toList line r) :=
  ⟨pathAndTimestamp_exact nd _ line r, pathAndTimestamp_exact nd _ line r⟩

/-- A path in quotes, with white space in it; the same quotes when something follows them directly; a line without path; and
one without white space after the path. -/
example : beforePathAndTimestamp .asciiOnly "--- \"a b\"\tx\n".toList = .ok (some ⟨"a b".toList, none⟩) ∧
    beforePathAndTimestamp .asciiOnly "--- \"a\"b \t1970-01-01 00:00:00 +0000\n".toList = .ok (some ⟨"\"a\"b".toList, some "1970-01-01 00:00:00 +0000".toList⟩) ∧
    beforePathAndTimestamp .asciiOnly "--- \n".toList = .ok none ∧ afterPathAndTimestamp .asciiOnly "+++ ab".toList = .ok none := by
  decide +kernel

end PwDiff
