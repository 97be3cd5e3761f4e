import Verif.Props.Passage

/-! # C131: converting the line endings -/

namespace PwDiff

/-- The text with `\r\n` for every `\n`. -/
def withCr (s : Str) : Str := s.flatMap fun c => if c = '\n' then ['\r', '\n'] else [c]

theorem withCr_append (s t : Str) : withCr (s ++ t) = withCr s ++ withCr t := List.flatMap_append

theorem withCr_of_noNewline {s : Str} (h : '\n' ∉ s) : withCr s = s := by
  induction s with
  | nil => rfl
  | cons c s ih =>
    simp only [List.mem_cons, not_or] at h
    show (if c = '\n' then _ else _) ++ withCr s = _
    rw [if_neg (Ne.symm h.1), ih h.2]
    rfl

theorem withCr_flatten (ls : List Str) : withCr ls.flatten = (ls.map withCr).flatten := by
  induction ls with
  | nil => rfl
  | cons l ls ih => rw [List.flatten_cons, withCr_append, ih]; rfl

theorem mem_withCr {s : Str} : '\r' ∈ withCr s ↔ '\r' ∈ s ∨ '\n' ∈ s := by
  simp only [withCr, List.mem_flatMap]
  constructor
  · rintro ⟨c, hc, h⟩
    split at h
    · rename_i e; exact .inr (e ▸ hc)
    · rw [List.mem_singleton] at h; exact .inl (h ▸ hc)
  · rintro (h | h)
    · exact ⟨_, h, by decide⟩
    · exact ⟨_, h, by decide⟩

theorem withCr_whole {x : Str} (hx : '\n' ∉ x) : withCr (x ++ ['\n']) = x ++ ['\r'] ++ ['\n'] := by
  rw [withCr_append, withCr_of_noNewline hx]
  simp [withCr]

/-- The lines of the converted text are the converted lines. -/
theorem lines_withCr (s : Str) : splitInclusive (withCr s) = (splitInclusive s).map withCr := by
  have hs := isLines_splitInclusive s
  have hline : ∀ l ∈ splitInclusive s, '\n' ∉ l ∨ ∃ x, '\n' ∉ x ∧ l = x ++ ['\n'] := by
    intro l hl
    by_cases h : l.getLast? = some '\n'
    · exact .inr ⟨l.dropLast, hs.inner l hl, eq_dropLast_append h⟩
    · refine .inl fun hm => ?_
      have h2 := hs.inner l hl
      cases e : l.getLast? with
      | none => rw [List.getLast?_eq_none_iff.1 e] at hm; simp at hm
      | some c =>
        rw [eq_dropLast_append e] at hm
        rcases List.mem_append.1 hm with hm | hm
        · exact h2 hm
        · rw [List.mem_singleton] at hm
          rw [e, hm] at h
          exact h rfl
  refine isLines_unique (isLines_splitInclusive _) ⟨?_, ?_, ?_, ?_⟩
  · rw [← withCr_flatten, hs.joined]
  · intro l hl
    obtain ⟨l, hm, rfl⟩ := List.mem_map.1 hl
    rcases hline l hm with h | ⟨x, h, rfl⟩
    · rw [withCr_of_noNewline h]; exact hs.nonempty l hm
    · rw [withCr_whole h]; simp
  · intro l hl
    obtain ⟨l, hm, rfl⟩ := List.mem_map.1 hl
    rcases hline l hm with h | ⟨x, h, rfl⟩
    · rw [withCr_of_noNewline h]; exact fun hk => h (List.dropLast_subset _ hk)
    · rw [withCr_whole h, List.dropLast_concat]; simp [h]
  · intro l hl
    rw [← List.map_dropLast] at hl
    obtain ⟨l, hm, rfl⟩ := List.mem_map.1 hl
    obtain ⟨x, rfl, h⟩ := hs.wholes l hm
    rw [withCr_whole h]
    simp

/-- A line of the one text is a line of the other one only if it has no newline. -/
theorem not_mem_withCr {s : Str} (hr : '\r' ∉ s) {l : Str} (h1 : l ∈ splitInclusive s) (h2 : l ∈ splitInclusive (withCr s)) : '\n' ∉ l := by
  rw [lines_withCr] at h2
  obtain ⟨l', h2, e⟩ := List.mem_map.1 h2
  have hl : '\r' ∉ l := by
    intro h
    apply hr
    rw [← flatten_splitInclusive s]
    exact List.mem_flatten.2 ⟨l, h1, h⟩
  have : '\n' ∉ l' := fun h => hl (e ▸ mem_withCr.2 (.inr h))
  rw [withCr_of_noNewline this] at e
  exact e ▸ this

/-- What is found when the line endings are converted: everything is replaced, except for a last line without newline, which is the
only one to be the same. -/
theorem C131_changes (p : Profile) (s : Str) (hr : '\r' ∉ s) :
    (∀ x, s = x ++ ['\n'] → changesOf p (splitInclusive s) (splitInclusive (withCr s)) =
      .ok [.replace ⟨0, (splitInclusive s).length⟩ ⟨0, (splitInclusive s).length⟩]) ∧
    (∀ x l, s = x ++ ['\n'] ++ l → l ≠ [] → '\n' ∉ l → changesOf p (splitInclusive s) (splitInclusive (withCr s)) =
      .ok [.replace ⟨0, (splitInclusive s).length - 1⟩ ⟨0, (splitInclusive s).length - 1⟩,
        .noChange ⟨(splitInclusive s).length - 1, (splitInclusive s).length - 1, 1⟩]) := by
  constructor
  · intro x e
    have hw := ended_splitInclusive (.inr ⟨x, e⟩)
    rw [C17_disjoint p _ _ fun l h1 h2 => by
      obtain ⟨y, rfl, -⟩ := hw l h1
      exact not_mem_withCr hr h1 h2 (by simp)]
    have hne : splitInclusive s ≠ [] := by
      intro h
      have := flatten_splitInclusive s
      rw [h, e] at this
      simp at this
    rw [if_neg hne, lines_withCr, if_neg (by simpa using hne), List.length_map]
  · intro x l e hl hn
    have hx : EndsWell (x ++ ['\n']) := .inr ⟨x, rfl⟩
    have hxr : '\r' ∉ x ++ ['\n'] := fun h => hr (by rw [e]; exact List.mem_append_left _ h)
    have hw := ended_splitInclusive hx
    have e1 : splitInclusive l = [l] := by
      refine isLines_unique (isLines_splitInclusive _) ⟨by simp, by simpa using hl, ?_, by simp⟩
      simpa using fun hm => hn (List.dropLast_subset _ hm)
    have e2 : splitInclusive s = splitInclusive (x ++ ['\n']) ++ [l] ++ [] := by rw [e, splitInclusive_append hx, e1, List.append_nil]
    have e3 : splitInclusive (withCr s) = splitInclusive (withCr (x ++ ['\n'])) ++ [l] ++ [] := by
      rw [lines_withCr, e2, lines_withCr, List.append_nil, List.append_nil, List.map_append, List.map_singleton, withCr_of_noNewline hn]
    have nl : ∀ y ∈ splitInclusive (x ++ ['\n']), '\n' ∈ y ∧ y ≠ l := by
      intro y hy
      obtain ⟨z, rfl, -⟩ := hw y hy
      exact ⟨by simp, fun h => hn (h ▸ by simp)⟩
    have nl' : ∀ y ∈ splitInclusive (withCr (x ++ ['\n'])), '\n' ∈ y ∧ y ≠ l := by
      intro y hy
      rw [lines_withCr] at hy
      obtain ⟨y, hm, rfl⟩ := List.mem_map.1 hy
      obtain ⟨z, rfl, hz⟩ := hw y hm
      rw [withCr_whole hz]
      exact ⟨by simp, fun h => hn (h ▸ by simp)⟩
    have key := C72_core p (splitInclusive (x ++ ['\n'])) (splitInclusive (withCr (x ++ ['\n']))) [l] [] [] (by simp)
      (fun y hy hy' => by
        rw [List.append_nil] at hy hy'
        rcases List.mem_append.1 hy' with hy' | hy'
        · exact not_mem_withCr hxr hy hy' (nl y hy).1
        · exact (nl y hy).2 (List.mem_singleton.1 hy'))
      (fun y hy hy' => by
        rw [List.append_nil] at hy hy'
        rcases List.mem_append.1 hy' with hy' | hy'
        · exact not_mem_withCr hxr hy' hy (nl' y hy).1
        · exact (nl' y hy).2 (List.mem_singleton.1 hy'))
    rw [← e2, ← e3] at key
    rw [key]
    have hne : splitInclusive (x ++ ['\n']) ≠ [] := by
      intro h
      have := flatten_splitInclusive (x ++ ['\n'])
      rw [h] at this
      simp at this
    have hlen : (splitInclusive (withCr (x ++ ['\n']))).length = (splitInclusive (x ++ ['\n'])).length := by rw [lines_withCr, List.length_map]
    have hpos := List.length_pos_iff.2 hne
    have hb : ∀ (old new : List Str), old ≠ [] → new.length = old.length →
        between 0 0 old new = [.replace ⟨0, old.length⟩ ⟨0, old.length⟩] := by
      intro old new h1 h2
      match old, new with
      | [], _ => exact absurd rfl h1
      | _ :: _, [] => cases h2
      | a :: old, b :: new => simp only [between, Nat.zero_add]; rw [h2]
    rw [e2, hb _ _ hne hlen, hlen]
    simp [between]

/-- So the conversion is carried over by `pw_diff` and `pw_patch`, and taken back by `pw_patch --reverse`. -/
theorem C131_session (p q : Profile) (temp patch before after : Path) (context : Nat) (w : World) (s : Str) (hr : '\r' ∉ s)
    (hw : Fresh w patch temp) (hctx : context ≤ 255) (hub : IsUtf8 before) (hua : IsUtf8 after)
    (hb : w.fs.contentAt before = some ⟨s.bytes, false⟩) (ha : w.fs.contentAt after = some ⟨(withCr s).bytes, false⟩)
    (hsz : (splitInclusive s).length ≤ maxLines) :
    ∃ patchContent, session p q temp patch before after context w =
      ((.exited 0, { w with stdout := patchContent }),
       (.exited 0, { w with fs := (w.fs.set (w.fs.entry patch) (some (.file patchContent))).set (w.fs.entry before) (some (.file (withCr s).bytes)) }),
       (.exited 0, { w with fs := (w.fs.set (w.fs.entry patch) (some (.file patchContent))).set (w.fs.entry before) (some (.file s.bytes)) })) := by
  refine C49_text_partial p q temp patch before after context w s (withCr s) hw hctx hub hua hb ha hsz
    (by rw [lines_withCr, List.length_map]; exact hsz) ?_
  rintro j i ⟨x, h1, h2⟩ ⟨y, h3, -⟩
  exfalso
  have hn := not_mem_withCr hr (List.mem_of_getElem? h1) (List.mem_of_getElem? h2)
  have hlt : j + 2 < (splitInclusive s).length := (List.getElem?_eq_some_iff.1 h3).1
  obtain ⟨z, rfl, -⟩ := (isLines_splitInclusive s).wholes x
    (List.mem_of_getElem? (i := j) (by rw [List.getElem?_dropLast, if_pos (by omega), h1]))
  exact hn (by simp)

/-- The text with `\r\n` at the end of all lines, also where some have had it before. -/
def unifiedCr (s : Str) : Str :=
  ((splitInclusive s).map fun l => if ['\r', '\n'] <:+ l then l else withCr l).flatten

/-- What one may expect: files with different line endings can be converted by a patch. -/
def C131_statement : Prop :=
  ∀ (p q : Profile) (s : Str) (context : Nat) (cs : List (DiffClump Str)), context ≤ 255 →
    diffClumps p (splitInclusive s) (splitInclusive (unifiedCr s)) context = .ok cs →
    (applyInto q cs (splitInclusive s) false).run.2 = (unifiedCr s).bytes

/-- It is not so: if only the second of three lines is to be converted, no difference is found. -/
theorem C131_refuted : ¬ C131_statement := by
  intro h
  have := h .debug .debug ['a', '\r', '\n', 'b', '\n', 'c', '\r', '\n'] 3 [] (by decide) (by decide +kernel)
  revert this
  decide +kernel

example := C131_changes .debug ['a', '\n', 'b', '\n', 'a', '\n', 'b'] (by decide)
example (p q : Profile) (context : Nat) (hctx : context ≤ 255) : ∃ r,
    (session p q [84] [80] [65] [67] context ⟨FS.ofFiles [([65], Str.bytes (['a', '\n', '\n', 'b', '\n'])),
      ([67], Str.bytes (['a', '\r', '\n', '\r', '\n', 'b', '\r', '\n']))], [], []⟩).2.1 = (.exited 0, r) ∧
      r.fs.contentAt [65] = some ⟨Str.bytes (['a', '\r', '\n', '\r', '\n', 'b', '\r', '\n']), false⟩ := by
  obtain ⟨e1, e2, e3, e3', e4, e5, e6, e6', e7, e8⟩ := FS.ofFiles_two (Str.bytes (['a', '\n', '\n', 'b', '\n']))
    (Str.bytes (['a', '\r', '\n', '\r', '\n', 'b', '\r', '\n']))
  generalize FS.ofFiles [([65], Str.bytes (['a', '\n', '\n', 'b', '\n'])),
    ([67], Str.bytes (['a', '\r', '\n', '\r', '\n', 'b', '\r', '\n']))] = fs at *
  obtain ⟨_, e⟩ := C131_session p q [84] [80] [65] [67] context ⟨fs, [], []⟩ ['a', '\n', '\n', 'b', '\n'] (by decide)
    ⟨rfl, rfl, by simp [e3', e6], by simp [e3, e6'], by simp [e3, e3']⟩ hctx ⟨['A'], by decide⟩ ⟨['C'], by decide⟩ e7 e8
    (by decide +kernel)
  rw [e]
  exact ⟨_, rfl, FS.contentAt_of_file (by simp; rfl)⟩

end PwDiff
