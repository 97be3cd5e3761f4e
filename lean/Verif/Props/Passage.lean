import Verif.Props.Changes
import Verif.Props.Edits
import Verif.Props.Fuzzy
import Verif.Proofs.UnifiedBack

/-! # C130: text added at the end or in front is never lost -/

namespace PwDiff

section

variable {T : Type}

/-- If a common run leaves at most one item of the shorter side of a region, no block in the region has a wrong pair in it. -/
theorem Decomp.true_of_run {before after : List T} {bs be as ae : Nat} {d : List CommonSubsequence}
    (h : Decomp before after bs be as ae d) (j i k : Nat) (h1 : bs ≤ j) (h2 : j + k ≤ be) (h3 : as ≤ i) (h4 : i + k ≤ ae)
    (hr : CommonRun before after j i k) (hk : min (be - bs) (ae - as) ≤ k + 1) :
    ∀ c ∈ d, CommonRun before after c.b c.a c.n := by
  induction h generalizing j i k with
  | leaf => simp
  | @node bs be as ae c L R hc _ _ ihl ihr =>
    obtain ⟨n, e, hch, hsk, hn⟩ := hc
    have g1 := hch.inOld
    have g2 := hch.inNew
    have g3 := hch.longest j i k h1 h2 h3 h4 hr
    have g4 := hsk.inside
    simp only at g1 g2 g4
    have he : e = 0 := by
      apply Classical.byContradiction
      intro hne
      have := g4 (by omega)
      omega
    subst he
    have none : ∀ b a : Nat, CommonRun before after b a 0 := fun _ _ t ht => absurd ht (Nat.not_lt_zero t)
    intro x hx
    rcases List.mem_append.1 hx with hx | hx
    · exact ihl bs as 0 (by omega) (by omega) (by omega) (by omega) (none _ _) (by omega) x hx
    · rcases List.mem_cons.1 hx with rfl | hx
      · rw [hn]; exact hch.run
      · exact ihr (c.b + c.n) (c.a + c.n) 0 (by omega) (by omega) (by omega) (by omega) (none _ _) (by omega) x hx

theorem commonRun_passage (P L S P' S' : List T) : CommonRun (P ++ L ++ S) (P' ++ L ++ S') P.length P'.length L.length := by
  intro t ht
  refine ⟨L[t], ?_, ?_⟩
  · rw [List.append_assoc, List.getElem?_append_right (by omega), List.getElem?_append_left (by omega)]
    simp [ht]
  · rw [List.append_assoc, List.getElem?_append_right (by omega), List.getElem?_append_left (by omega)]
    simp [ht]

theorem gaps_true {before after : List T} {changes : List Change} {cs : List (DiffClump T)}
    (hd : Diffed (Skip changes) before after 0 0 cs before.length after.length)
    (hk : ∀ c, .noChange c ∈ changes → cut before c.b (c.b + c.n) = cut after c.a (c.a + c.n)) :
    ∀ g ∈ gaps before 0 0 cs, cut before g.b (g.b + g.n) = cut after g.a (g.a + g.n) := by
  intro g hg
  rcases hd.gaps_skip g hg with h0 | ⟨c, hc, hs⟩
  · rw [h0, Nat.add_zero, Nat.add_zero, cut_self, cut_self]
  · exact cut_of_subBlock hs (hk c hc)

variable [DecidableEq T] [Item T] [LawfulItem T]

/-- If two sequences have a passage in common that leaves at most one item of the shorter sequence, then what the change list says to
be unchanged is unchanged, and the change list leads to the second sequence. -/
theorem C130_changes (p : Profile) (P L S P' S' : List T) (changes : List Change)
    (hL : min (P ++ L ++ S).length (P' ++ L ++ S').length ≤ L.length + 1)
    (h : changesOf p (P ++ L ++ S) (P' ++ L ++ S') = .ok changes) :
    (∀ c, .noChange c ∈ changes → cut (P ++ L ++ S) c.b (c.b + c.n) = cut (P' ++ L ++ S') c.a (c.a + c.n)) ∧
      replay (P ++ L ++ S) (P' ++ L ++ S') changes = P' ++ L ++ S' := by
  have key : ∀ c, .noChange c ∈ changes → cut (P ++ L ++ S) c.b (c.b + c.n) = cut (P' ++ L ++ S') c.a (c.a + c.n) := by
    obtain ⟨cs, h', hg, d, hd, rfl⟩ := changesOf_spec p (P ++ L ++ S) (P' ++ L ++ S')
    obtain rfl := Outcome.ok_inj (h'.symm.trans h)
    intro c hc
    have hc' := mem_gen _ _ _ 0 0 c hc
    have hb := hg.ordered.bounds c hc'
    apply (commonRun_iff_cut (by omega) (by omega)).1
    refine mergeAdjacent_runs _ _ d ?_ c hc'
    refine hd.true_of_run P.length P'.length L.length (by omega) ?_ (by omega) ?_ (commonRun_passage P L S P' S') (by omega)
    · simp only [List.length_append]; omega
    · simp only [List.length_append]; omega
  exact ⟨key, (C14_replay_iff_partial p _ _ changes h).1.2 key⟩

/-- So the patch makes the second text of the first one, and in reverse the first one of the second one. -/
theorem C130_passage (p q : Profile) (P L S P' S' : List T) (context : Nat) (hctx : context ≤ 255)
    (hb : (P ++ L ++ S).length ≤ maxLines) (ha : (P' ++ L ++ S').length ≤ maxLines)
    (hL : min (P ++ L ++ S).length (P' ++ L ++ S').length ≤ L.length + 1) (cs : List (DiffClump T))
    (h : diffClumps p (P ++ L ++ S) (P' ++ L ++ S') context = .ok cs) :
    (applyInto q cs (P ++ L ++ S) false).run = (.ok { clean := cs.length }, bytesOf (P' ++ L ++ S')) ∧
    (applyInto q cs (P' ++ L ++ S') true).run = (.ok { clean := cs.length }, bytesOf (P ++ L ++ S)) := by
  obtain ⟨-, changes, hch, hd⟩ := diffClumps_full hctx h
  have hg := gaps_true hd (C130_changes p P L S P' S' changes hL hch).1
  obtain ⟨x, e1, -, e2, -⟩ := C24_partial p q _ _ context hctx hb ha cs h
  obtain ⟨y, f1, -, f2, -⟩ := C25_partial p q _ _ context hctx hb ha cs h
  rw [e2.2 hg] at e1
  rw [f2.2 hg] at f1
  exact ⟨e1, f1⟩

end

/-- The same for byte patches, with context and files that are not empty. -/
theorem C130_bytes (p q : Profile) (P L S P' S' : List UInt8) (context : Nat) (h1 : 1 ≤ context) (hctx : context ≤ 255)
    (hne : P ++ L ++ S ≠ []) (hne' : P' ++ L ++ S' ≠ [])
    (hsz : 2 * (P ++ L ++ S).length + 2 * (P' ++ L ++ S').length < wordSize)
    (hL : min (P ++ L ++ S).length (P' ++ L ++ S').length ≤ L.length + 1) (cs : List (DiffClump UInt8))
    (h : diffClumps p (P ++ L ++ S) (P' ++ L ++ S') context = .ok cs) :
    (byteApplyInto q cs (P ++ L ++ S) false).run = (.ok (), P' ++ L ++ S') ∧
    (byteApplyInto q cs (P' ++ L ++ S') true).run = (.ok (), P ++ L ++ S) := by
  obtain ⟨-, changes, hch, hd⟩ := diffClumps_full hctx h
  have hg := gaps_true hd (C130_changes p P L S P' S' changes hL hch).1
  obtain ⟨x, e1, -, e2, -⟩ := C40_partial p q _ _ context h1 hctx hne (by omega) cs h
  obtain ⟨y, f1, -, f2, -⟩ := C40_reverse_partial p q _ _ context h1 hctx hne' (by omega) cs h
  rw [e2.2 hg] at e1
  rw [f2.2 hg] at f1
  exact ⟨e1, f1⟩

/-! ## The programs -/

theorem eq_dropLast_append {T : Type} {l : List T} {x : T} (h : l.getLast? = some x) : l = l.dropLast ++ [x] := by
  obtain ⟨ys, rfl⟩ := List.getLast?_eq_some_iff.1 h
  rw [List.dropLast_concat]

theorem IsLines.wholes {s : Str} {ls : List Str} (h : IsLines s ls) : ∀ l ∈ ls.dropLast, WholeLine l := by
  intro l hl
  have h1 := h.ended l hl
  have h2 := h.inner l (List.dropLast_subset _ hl)
  exact ⟨l.dropLast, (eq_dropLast_append h1), h2⟩

/-- Text added at the end leaves all lines but the last one as they are. -/
theorem lines_append (s u : Str) : ∃ S, splitInclusive (s ++ u) = (splitInclusive s).dropLast ++ S := by
  have hs := isLines_splitInclusive s
  refine ⟨splitInclusive (((splitInclusive s).getLast?.getD []) ++ u), ?_⟩
  rw [← splitInclusive_flatten hs.wholes, ← List.append_assoc]
  congr 2
  conv => lhs; rw [← hs.joined]
  cases e : (splitInclusive s).getLast? with
  | none => rw [List.getLast?_eq_none_iff.1 e]; rfl
  | some x =>
    conv => lhs; rw [eq_dropLast_append e]
    simp

/-- Text added in front leaves all lines but the first one as they are. -/
theorem lines_prepend (s u : Str) : ∃ P, splitInclusive (u ++ s) = P ++ (splitInclusive s).tail := by
  have hs := isLines_splitInclusive s
  cases e : splitInclusive s with
  | nil => exact ⟨_, (List.append_nil _).symm⟩
  | cons x B =>
    by_cases hB : B = []
    · subst hB; exact ⟨_, (List.append_nil _).symm⟩
    have hx : WholeLine x := by
      refine hs.wholes x ?_
      rw [e, List.dropLast_cons_of_ne_nil hB]
      simp
    have hj : s = x ++ B.flatten := by rw [← hs.joined, e]; rfl
    have e2 : splitInclusive B.flatten = B := by
      have := splitInclusive_ended hx B.flatten
      rw [← hj, e] at this
      exact (List.cons.inj this).2.symm
    refine ⟨splitInclusive (u ++ x), ?_⟩
    obtain ⟨y, rfl, -⟩ := hx
    rw [hj, ← List.append_assoc, splitInclusive_append (.inr ⟨u ++ y, by simp⟩), e2]
    rfl

theorem session_true (p q : Profile) (temp patch before after : Path) (context : Nat) (w : World) (s t : Str)
    (hw : Fresh w patch temp) (hctx : context ≤ 255) (hub : IsUtf8 before) (hua : IsUtf8 after)
    (hb : w.fs.contentAt before = some ⟨s.bytes, false⟩) (ha : w.fs.contentAt after = some ⟨t.bytes, false⟩)
    (hsb : (splitInclusive s).length ≤ maxLines) (hst : (splitInclusive t).length ≤ maxLines)
    (P L S P' S' : List Str) (hs : splitInclusive s = P ++ L ++ S) (ht : splitInclusive t = P' ++ L ++ S')
    (hL : min (splitInclusive s).length (splitInclusive t).length ≤ L.length + 1) :
    ∃ patchContent, session p q temp patch before after context w =
      ((.exited 0, { w with stdout := patchContent }),
       (.exited 0, { w with fs := (w.fs.set (w.fs.entry patch) (some (.file patchContent))).set (w.fs.entry before) (some (.file t.bytes)) }),
       (.exited 0, { w with fs := (w.fs.set (w.fs.entry patch) (some (.file patchContent))).set (w.fs.entry before) (some (.file s.bytes)) })) := by
  obtain ⟨cs, hcs⟩ := diffClumps_total p (splitInclusive s) (splitInclusive t) context
  have hd := diffNew_text hw.faults p context hb ha hcs
  have hsz : ∀ n, n ≤ maxLines → n < wordSize := by
    intro n h
    simp only [maxLines, wordSize] at *
    omega
  have hbytes : ∀ u : Str, bytesOf (splitInclusive u) = u.bytes := by
    intro u
    show (splitInclusive u).flatMap Str.bytes = _
    rw [flatMap_bytes, flatten_splitInclusive]
  have key : (applyInto q cs (splitInclusive s) false).run = (.ok { clean := cs.length }, t.bytes) ∧
      (applyInto q cs (splitInclusive t) true).run = (.ok { clean := cs.length }, s.bytes) := by
    rw [← hbytes s, ← hbytes t]
    rw [hs] at hcs hsb hL ⊢
    rw [ht] at hcs hst hL ⊢
    exact C130_passage p q P L S P' S' context hctx hsb hst hL cs hcs
  exact ⟨_, session_change p q hw hd (clumps_inRange hctx hcs (hsz _ hsb) (hsz _ hst))
    (by intro path h; simp only [Diff.paths, List.mem_cons, List.not_mem_nil, or_false] at h; rcases h with rfl | rfl <;> assumption)
    rfl hb ⟨s, _, rfl, key.1⟩ ⟨t, _, rfl, key.2⟩⟩

/-- Whatever text is added at the end of a text file (also at the end of its last line): `pw_diff` and `pw_patch` carry it over, and
`pw_patch --reverse` takes it back. -/
theorem C130_append (p q : Profile) (temp patch before after : Path) (context : Nat) (w : World) (s u : Str)
    (hw : Fresh w patch temp) (hctx : context ≤ 255) (hub : IsUtf8 before) (hua : IsUtf8 after)
    (hb : w.fs.contentAt before = some ⟨s.bytes, false⟩) (ha : w.fs.contentAt after = some ⟨(s ++ u).bytes, false⟩)
    (hsb : (splitInclusive s).length ≤ maxLines) (hst : (splitInclusive (s ++ u)).length ≤ maxLines) :
    ∃ patchContent, session p q temp patch before after context w =
      ((.exited 0, { w with stdout := patchContent }),
       (.exited 0, { w with fs := (w.fs.set (w.fs.entry patch) (some (.file patchContent))).set (w.fs.entry before) (some (.file (s ++ u).bytes)) }),
       (.exited 0, { w with fs := (w.fs.set (w.fs.entry patch) (some (.file patchContent))).set (w.fs.entry before) (some (.file s.bytes)) })) := by
  obtain ⟨S, hS⟩ := lines_append s u
  have hs : ∃ S, splitInclusive s = [] ++ (splitInclusive s).dropLast ++ S :=
    ⟨(splitInclusive s).drop ((splitInclusive s).length - 1), by rw [List.nil_append, List.dropLast_eq_take, List.take_append_drop]⟩
  obtain ⟨S', hs⟩ := hs
  exact session_true p q temp patch before after context w s (s ++ u) hw hctx hub hua hb ha hsb hst [] _ S' [] S hs hS
    (by rw [List.length_dropLast]; omega)

/-- The same for text taken away at the end. -/
theorem C130_truncate (p q : Profile) (temp patch before after : Path) (context : Nat) (w : World) (s u : Str)
    (hw : Fresh w patch temp) (hctx : context ≤ 255) (hub : IsUtf8 before) (hua : IsUtf8 after)
    (hb : w.fs.contentAt before = some ⟨(s ++ u).bytes, false⟩) (ha : w.fs.contentAt after = some ⟨s.bytes, false⟩)
    (hsb : (splitInclusive (s ++ u)).length ≤ maxLines) (hst : (splitInclusive s).length ≤ maxLines) :
    ∃ patchContent, session p q temp patch before after context w =
      ((.exited 0, { w with stdout := patchContent }),
       (.exited 0, { w with fs := (w.fs.set (w.fs.entry patch) (some (.file patchContent))).set (w.fs.entry before) (some (.file s.bytes)) }),
       (.exited 0, { w with fs := (w.fs.set (w.fs.entry patch) (some (.file patchContent))).set (w.fs.entry before) (some (.file (s ++ u).bytes)) })) := by
  obtain ⟨S, hS⟩ := lines_append s u
  have hs : ∃ S, splitInclusive s = [] ++ (splitInclusive s).dropLast ++ S :=
    ⟨(splitInclusive s).drop ((splitInclusive s).length - 1), by rw [List.nil_append, List.dropLast_eq_take, List.take_append_drop]⟩
  obtain ⟨S', hs⟩ := hs
  exact session_true p q temp patch before after context w (s ++ u) s hw hctx hub hua hb ha hsb hst [] _ S [] S' hS hs
    (by rw [List.length_dropLast]; omega)

/-- The same for text added in front (also in front of the first line). -/
theorem C130_prepend (p q : Profile) (temp patch before after : Path) (context : Nat) (w : World) (s u : Str)
    (hw : Fresh w patch temp) (hctx : context ≤ 255) (hub : IsUtf8 before) (hua : IsUtf8 after)
    (hb : w.fs.contentAt before = some ⟨s.bytes, false⟩) (ha : w.fs.contentAt after = some ⟨(u ++ s).bytes, false⟩)
    (hsb : (splitInclusive s).length ≤ maxLines) (hst : (splitInclusive (u ++ s)).length ≤ maxLines) :
    ∃ patchContent, session p q temp patch before after context w =
      ((.exited 0, { w with stdout := patchContent }),
       (.exited 0, { w with fs := (w.fs.set (w.fs.entry patch) (some (.file patchContent))).set (w.fs.entry before) (some (.file (u ++ s).bytes)) }),
       (.exited 0, { w with fs := (w.fs.set (w.fs.entry patch) (some (.file patchContent))).set (w.fs.entry before) (some (.file s.bytes)) })) := by
  obtain ⟨P, hP⟩ := lines_prepend s u
  exact session_true p q temp patch before after context w s (u ++ s) hw hctx hub hua hb ha hsb hst ((splitInclusive s).take 1)
    (splitInclusive s).tail [] P []
    (by rw [List.append_nil, ← List.drop_one, List.take_append_drop]) (by rw [List.append_nil, hP])
    (by rw [List.length_tail]; omega)

/-! ## Not anywhere -/

/-- What one may expect: lines put in at one place are carried over. -/
def C130_statement : Prop :=
  ∀ (p q : Profile) (A X B : List Str) (context : Nat) (cs : List (DiffClump Str)), context ≤ 255 →
    diffClumps p (A ++ B) (A ++ X ++ B) context = .ok cs → (applyInto q cs (A ++ B) false).run.2 = bytesOf (A ++ X ++ B)

/-- It is not so: if a line `b` is put in the middle of twelve equal lines `a`, the patch adds one more line `a` at the end. -/
theorem C130_refuted : ¬ C130_statement := by
  intro h
  have := h .debug .debug (letters ['a', 'a', 'a', 'a', 'a', 'a']) (letters ['b']) (letters ['a', 'a', 'a', 'a', 'a', 'a']) 3
    [⟨(3, 0), ⟨9, letters ['a', 'a', 'a']⟩, ⟨9, letters ['a', 'a', 'a', 'a']⟩⟩] (by decide) (by decide +kernel)
  revert this
  decide +kernel

/-- In `C130_passage` two lines of the shorter text would be too many to be left out of the passage: a line put in the middle of `aaaa`
is replaced by `a` if there is no context. -/
theorem C130_sharp : ∃ (P L S P' S' : List Str) (cs : List (DiffClump Str)),
    min (P ++ L ++ S).length (P' ++ L ++ S').length = L.length + 2 ∧
    diffClumps .debug (P ++ L ++ S) (P' ++ L ++ S') 0 = .ok cs ∧
    (applyInto .debug cs (P ++ L ++ S) false).run.2 ≠ bytesOf (P' ++ L ++ S') :=
  ⟨[], letters ['a', 'a'], letters ['a', 'a'], [], letters ['b', 'a', 'a'], [⟨(0, 0), ⟨4, []⟩, ⟨4, letters ['a']⟩⟩],
    by decide, by decide +kernel, by decide +kernel⟩

/-- A line put in after the first one, among lines that repeat themselves; one put in before the last one; the last one replaced. -/
example := C130_passage .debug .release (letters ['a']) (letters ['a', 'b', 'a', 'a']) [] (letters ['a', 'b']) [] 0 (by decide) (by decide +kernel)
    (by decide +kernel) (by decide) _ (diffClumps_total _ _ _ _).choose_spec
example := C130_passage .debug .release [] (letters ['a', 'b', 'a', 'a']) (letters ['a']) [] (letters ['c', 'a']) 1 (by decide) (by decide +kernel)
    (by decide +kernel) (by decide) _ (diffClumps_total _ _ _ _).choose_spec
example := C130_changes .debug [] (letters ['a', 'b', 'a', 'a']) (letters ['a']) [] (letters ['c']) _ (by decide)
    (show _ = Outcome.ok [Change.noChange ⟨0, 0, 4⟩, Change.replace ⟨4, 5⟩ ⟨4, 5⟩] by decide +kernel)
example := C130_bytes .debug .release [] [1, 2, 1, 1] [] [] [2, 1, 7, 1] 1 (by decide) (by decide) (by decide) (by decide) (by decide +kernel)
    (by decide) _ (diffClumps_total _ _ _ _).choose_spec
/-- A newline is put at the end of a file that has none. -/
example (p q : Profile) (context : Nat) (hctx : context ≤ 255) : ∃ r,
    (session p q [84] [80] [65] [67] context ⟨FS.ofFiles [([65], Str.bytes (['a', '\n', 'b'])), ([67], Str.bytes (['a', '\n', 'b'] ++ ['\n']))], [], []⟩).2.1 = (.exited 0, r) ∧
      r.fs.contentAt [65] = some ⟨Str.bytes (['a', '\n', 'b'] ++ ['\n']), false⟩ := by
  obtain ⟨e1, e2, e3, e3', e4, e5, e6, e6', e7, e8⟩ := FS.ofFiles_two (Str.bytes (['a', '\n', 'b'])) (Str.bytes (['a', '\n', 'b'] ++ ['\n']))
  generalize FS.ofFiles [([65], Str.bytes (['a', '\n', 'b'])), ([67], Str.bytes (['a', '\n', 'b'] ++ ['\n']))] = fs at *
  obtain ⟨_, e⟩ := C130_append p q [84] [80] [65] [67] context ⟨fs, [], []⟩ ['a', '\n', 'b'] ['\n']
    ⟨rfl, rfl, by simp [e3', e6], by simp [e3, e6'], by simp [e3, e3']⟩ hctx ⟨['A'], by decide⟩ ⟨['C'], by decide⟩ e7 e8
    (by decide +kernel) (by decide +kernel)
  rw [e]
  exact ⟨_, rfl, FS.contentAt_of_file (by simp)⟩
/-- It is taken away. -/
example (p q : Profile) (context : Nat) (hctx : context ≤ 255) : ∃ r,
    (session p q [84] [80] [65] [67] context ⟨FS.ofFiles [([65], Str.bytes (['a', '\n', 'b'] ++ ['\n'])), ([67], Str.bytes (['a', '\n', 'b']))], [], []⟩).2.1 = (.exited 0, r) ∧
      r.fs.contentAt [65] = some ⟨Str.bytes (['a', '\n', 'b']), false⟩ := by
  obtain ⟨e1, e2, e3, e3', e4, e5, e6, e6', e7, e8⟩ := FS.ofFiles_two (Str.bytes (['a', '\n', 'b'] ++ ['\n'])) (Str.bytes (['a', '\n', 'b']))
  generalize FS.ofFiles [([65], Str.bytes (['a', '\n', 'b'] ++ ['\n'])), ([67], Str.bytes (['a', '\n', 'b']))] = fs at *
  obtain ⟨_, e⟩ := C130_truncate p q [84] [80] [65] [67] context ⟨fs, [], []⟩ ['a', '\n', 'b'] ['\n']
    ⟨rfl, rfl, by simp [e3', e6], by simp [e3, e6'], by simp [e3, e3']⟩ hctx ⟨['A'], by decide⟩ ⟨['C'], by decide⟩ e7 e8
    (by decide +kernel) (by decide +kernel)
  rw [e]
  exact ⟨_, rfl, FS.contentAt_of_file (by simp)⟩
/-- A line is put in front, and the first line becomes longer. -/
example (p q : Profile) (context : Nat) (hctx : context ≤ 255) : ∃ r,
    (session p q [84] [80] [65] [67] context ⟨FS.ofFiles [([65], Str.bytes (['a', '\n', 'b'])), ([67], Str.bytes (['c', '\n', 'd'] ++ ['a', '\n', 'b']))], [], []⟩).2.1 = (.exited 0, r) ∧
      r.fs.contentAt [65] = some ⟨Str.bytes (['c', '\n', 'd'] ++ ['a', '\n', 'b']), false⟩ := by
  obtain ⟨e1, e2, e3, e3', e4, e5, e6, e6', e7, e8⟩ := FS.ofFiles_two (Str.bytes (['a', '\n', 'b'])) (Str.bytes (['c', '\n', 'd'] ++ ['a', '\n', 'b']))
  generalize FS.ofFiles [([65], Str.bytes (['a', '\n', 'b'])), ([67], Str.bytes (['c', '\n', 'd'] ++ ['a', '\n', 'b']))] = fs at *
  obtain ⟨_, e⟩ := C130_prepend p q [84] [80] [65] [67] context ⟨fs, [], []⟩ ['a', '\n', 'b'] ['c', '\n', 'd']
    ⟨rfl, rfl, by simp [e3', e6], by simp [e3, e6'], by simp [e3, e3']⟩ hctx ⟨['A'], by decide⟩ ⟨['C'], by decide⟩ e7 e8
    (by decide +kernel) (by decide +kernel)
  rw [e]
  exact ⟨_, rfl, FS.contentAt_of_file (by simp)⟩

end PwDiff
