import Verif.Proofs.UnifiedText

/-! # Parsing generated unified clumps -/

namespace PwDiff

/-! ## Context lines -/

theorem text_real {before after : List Str} {c : Change} (h : c.isNoChange = false) :
    ∀ x ∈ c.text before after, isContext x = false := by
  have hm : ∀ {m : Char} {l : List Str} {r : Range}, (m = '-' ∨ m = '+') → ∀ x ∈ markedLines m l r, isContext x = false := by
    intro m l r hm x hx
    obtain ⟨y, -, rfl⟩ := mem_markedLines hx
    rcases hm with rfl | rfl <;> rfl
  intro x hx
  cases c with
  | noChange c => cases h
  | delete r s => exact hm (by simp) x hx
  | insert s r => exact hm (by simp) x hx
  | replace r s =>
    simp only [Change.text] at hx
    split at hx <;> rcases List.mem_append.1 hx with hx | hx <;> exact hm (by simp) x hx

theorem text_block {before after : List Str} {c : CommonSubsequence} :
    ∀ x ∈ (Change.noChange c).text before after, isContext x = true := by
  intro x hx
  obtain ⟨y, -, rfl⟩ := mem_markedLines hx
  rfl

theorem text_block_length {before after : List Str} {c : CommonSubsequence} (h : c.b + c.n ≤ before.length) :
    ((Change.noChange c).text before after).length = c.n := by
  simp only [Change.text, markedLines, List.length_map, length_cut before _ _ h]
  omega

theorem endRun_context (xs ys : List Str) (h : ∀ y ∈ ys, isContext y = true) : endRun (xs ++ ys) = endRun xs + ys.length := by
  unfold endRun
  rw [List.reverse_append, List.takeWhile_append_of_pos (by simpa using h)]
  simp
  omega

theorem endRun_other (xs : List Str) (y : Str) (h : isContext y = false) : endRun (xs ++ [y]) = 0 := by
  rw [endRun_snoc]
  simp [h]

theorem endRun_nonContext (xs ys : List Str) (hne : ys ≠ []) (h : ∀ y ∈ ys, isContext y = false) : endRun (xs ++ ys) = 0 := by
  rw [← List.dropLast_concat_getLast hne, ← List.append_assoc]
  exact endRun_other _ _ (h _ (List.getLast_mem hne))

/-! ## Consecutive context lines -/

theorem Alternating.append_left {xs ys : List Change} (h : Alternating (xs ++ ys)) : Alternating xs := by
  induction xs with
  | nil => trivial
  | cons x xs ih =>
    cases xs with
    | nil => trivial
    | cons y xs => exact ⟨h.1, ih h.2⟩

theorem Alternating.snoc_block {xs : List Change} {g : CommonSubsequence} (h : Alternating xs) (hl : LastReal xs) :
    Alternating (xs ++ [.noChange g]) := by
  induction xs with
  | nil => trivial
  | cons x xs ih =>
    cases xs with
    | nil =>
      refine ⟨?_, trivial⟩
      have := hl x (by simp)
      rw [this]
      simp [Change.isNoChange]
    | cons y xs => exact ⟨h.1, ih h.2 (fun c hc => hl c (by simpa using hc))⟩

theorem Alternating.cons_block {xs : List Change} {g : CommonSubsequence} (h : Alternating xs) (hl : HeadReal xs) :
    Alternating (.noChange g :: xs) := by
  cases xs with
  | nil => trivial
  | cons x xs =>
    refine ⟨?_, h⟩
    have := hl x (by simp)
    rw [this]
    simp [Change.isNoChange]

theorem IsStretch.alternating {ctx : Nat} {changes clump : List Change} (h : IsStretch ctx changes clump)
    (ha : Alternating changes) : Alternating clump := by
  obtain ⟨init, lead, mid, trail, tail, rfl, rfl, hne, hh, hlr, -, hl, ht⟩ := h
  have hmid : Alternating mid := Alternating.append_right (xs := init) (Alternating.append_left ha)
  have h1 : Alternating (mid ++ trail) := by
    rcases ht with ⟨-, rfl⟩ | ⟨m, tail', -, -, rfl⟩
    · simpa using hmid
    · exact hmid.snoc_block hlr
  rcases hl with ⟨-, rfl⟩ | ⟨init', m, -, -, rfl⟩
  · simpa using h1
  · rw [List.append_assoc]
    refine h1.cons_block ?_
    cases mid with
    | nil => exact absurd rfl hne
    | cons c mid => exact fun d hd => hh d (by simpa using hd)

/-- The blocks of a clump are not longer than the context, or than twice the context between two changes. -/
theorem IsStretch.block_le {ctx : Nat} {changes clump : List Change} (h : IsStretch ctx changes clump) {g : CommonSubsequence}
    (hc : .noChange g ∈ clump) : g.n ≤ ctx ∨ g.n < 2 * ctx := by
  obtain ⟨init, lead, mid, trail, tail, rfl, rfl, -, -, -, hm, hl, ht⟩ := h
  rcases List.mem_append.1 hc with hc | hc
  · rcases List.mem_append.1 hc with hc | hc
    · rcases hl with ⟨-, rfl⟩ | ⟨init', m, rfl, -, rfl⟩
      · cases hc
      · rw [List.mem_singleton] at hc
        injection hc with hc
        subst hc
        exact .inl (Nat.min_le_left _ _)
    · exact .inr (hm g hc)
  · rcases ht with ⟨-, rfl⟩ | ⟨m, tail', rfl, -, rfl⟩
    · cases hc
    · rw [List.mem_singleton] at hc
      injection hc with hc
      subst hc
      exact .inl (Nat.min_le_left _ _)

theorem ShortRuns.append {xs ys : List Str} (h1 : ShortRuns xs) (h2 : ∀ pre post, ys = pre ++ post → endRun (xs ++ pre) < 256) :
    ShortRuns (xs ++ ys) := by
  intro pre post h
  rcases List.append_eq_append_iff.mp h with ⟨as, e5, e6⟩ | ⟨bs, e5, e6⟩
  · rw [e5]
    exact h2 as post e6
  · exact h1 pre bs e5

theorem shortRuns_textOf {before after : List Str} {cs : List Change} {i j ie je : Nat} (h : Tiles i j cs ie je)
    (hie : ie ≤ before.length) (hje : je ≤ after.length) (hp : ∀ c ∈ cs, c.isNoChange = false → c.Proper)
    (ha : Alternating cs) (hb : ∀ c, .noChange c ∈ cs → c.n < 256) (body : List Str) (hs : ShortRuns body)
    (h0 : endRun body = 0 ∨ HeadReal cs) : ShortRuns (body ++ textOf before after cs) := by
  induction cs generalizing i j body with
  | nil => simpa [textOf] using hs
  | cons c cs ih =>
    obtain ⟨h1, h2, h3, h4, h5⟩ := h
    have hle := h5.le
    rw [textOf_cons, ← List.append_assoc]
    refine ih h5 (fun c hc => hp c (by simp [hc])) ha.tail (fun c hc => hb c (by simp [hc])) _ ?_ ?_
    · apply ShortRuns.append hs
      intro pre post hpp
      cases hn : c.isNoChange with
      | true =>
        cases c with
        | noChange c =>
          have h00 : endRun body = 0 := by
            rcases h0 with h0 | h0
            · exact h0
            · have := h0 (.noChange c) (by simp)
              cases this
          have hlen := text_block_length (after := after) (c := c) (show c.b + c.n ≤ before.length by
            have := h5.le.1; simp only [Change.old] at this; omega)
          have hl := congrArg List.length hpp
          rw [List.length_append, hlen] at hl
          have := hb c (by simp)
          rw [endRun_context _ _ (fun y hy => text_block (before := before) (after := after) (c := c) y (by rw [hpp]; simp [hy])), h00]
          omega
        | delete _ _ => cases hn
        | insert _ _ => cases hn
        | replace _ _ => cases hn
      | false =>
        by_cases hpre : pre = []
        · subst hpre
          have := hs body [] (by simp)
          simpa using this
        · rw [endRun_nonContext _ _ hpre (fun y hy => text_real hn y (by rw [hpp]; simp [hy]))]
          omega
    · cases hn : c.isNoChange with
      | true =>
        cases c with
        | noChange c => exact .inr ha.headReal
        | delete _ _ => cases hn
        | insert _ _ => cases hn
        | replace _ _ => cases hn
      | false =>
        exact .inl (endRun_nonContext _ _ (text_ne_nil (hp c (by simp) hn) hn (by omega) (by omega)) (text_real hn))

/-! ## Leading and trailing context -/

theorem leadContext_eq {xs ys : List Str} {y : Str} (hx : ∀ x ∈ xs, isContext x = true) (hy : isContext y = false) :
    leadContext (xs ++ y :: ys) = xs.length := by
  unfold leadContext
  rw [List.takeWhile_append_of_pos hx, List.takeWhile_cons]
  simp [hy]

theorem trailContext_eq {xs ys : List Str} {y : Str} (hx : ∀ x ∈ xs, isContext x = true) (hy : isContext y = false) :
    trailContext (ys ++ [y] ++ xs) = xs.length := by
  unfold trailContext
  rw [endRun_context _ _ hx, endRun_other _ _ hy]
  simp [hy]

/-- The first line of real changes is not a context line. -/
theorem textOf_head {before after : List Str} {c : Change} {cs : List Change} (hp : c.Proper) (hn : c.isNoChange = false)
    (h1 : c.old.fin ≤ before.length) (h2 : c.new.fin ≤ after.length) :
    ∃ y ys, textOf before after (c :: cs) = y :: ys ∧ isContext y = false := by
  have hne := text_ne_nil hp hn h1 h2
  rw [textOf_cons]
  cases ht : c.text before after with
  | nil => exact absurd ht hne
  | cons y ys => exact ⟨y, ys ++ textOf before after cs, rfl, text_real hn y (by rw [ht]; simp)⟩

theorem textOf_last {before after : List Str} {c : Change} {cs : List Change} (hp : c.Proper) (hn : c.isNoChange = false)
    (h1 : c.old.fin ≤ before.length) (h2 : c.new.fin ≤ after.length) :
    ∃ y ys, textOf before after (cs ++ [c]) = ys ++ [y] ∧ isContext y = false := by
  have hne := text_ne_nil hp hn h1 h2
  rw [textOf_append]
  refine ⟨(c.text before after).getLast hne, textOf before after cs ++ (c.text before after).dropLast, ?_,
    text_real hn _ (List.getLast_mem hne)⟩
  rw [List.append_assoc, List.dropLast_concat_getLast]
  simp [textOf]

theorem textOf_contexts {before after : List Str} {ctx : Nat} {cc : ChangeClump} (h : TextClumpFacts before after ctx cc) :
    leadContext (textOf before after cc.changes) = ChangeClump.contextOf cc.changes.head? ∧
    trailContext (textOf before after cc.changes) = ChangeClump.contextOf cc.changes.getLast? := by
  obtain ⟨changes, ⟨init, lead, mid, trail, tail, -, e, hne, hh, hlr, hm, hl, ht⟩, -, -⟩ := h.stretch
  have hin : ∀ c ∈ cc.changes, c.old.fin ≤ before.length ∧ c.new.fin ≤ after.length := by
    intro c hc
    have := h.tiles.mem_le hc
    have := h.inside1
    have := h.inside2
    omega
  have hpr := h.proper
  rw [e] at hin hpr ⊢
  have block : ∀ g : CommonSubsequence, Change.noChange g ∈ lead ++ mid ++ trail →
      ((Change.noChange g).text before after).length = g.n := fun g hg => text_block_length (hin _ hg).1
  constructor
  · cases mid with
    | nil => exact absurd rfl hne
    | cons c mid =>
      have hc := hh c (by simp)
      obtain ⟨y, ys, e1, hy⟩ := textOf_head (before := before) (after := after) (cs := mid ++ trail) (hpr c (by simp) hc) hc
        (hin c (by simp)).1 (hin c (by simp)).2
      rcases hl with ⟨-, rfl⟩ | ⟨init', m, -, -, rfl⟩
      · have e2 : textOf before after ([] ++ (c :: mid) ++ trail) = [] ++ y :: ys := by simpa using e1
        rw [e2, leadContext_eq (by simp) hy]
        exact (contextOf_real hc).symm
      · have e2 := textOf_cons before after (.noChange ⟨m.b + m.n - min ctx m.n, m.a + m.n - min ctx m.n, min ctx m.n⟩) (c :: mid ++ trail)
        rw [List.cons_append, e1] at e2
        rw [List.append_assoc, List.singleton_append, List.cons_append, e2, leadContext_eq text_block hy, block _ (by simp)]
        rfl
  · obtain ⟨mid', c, rfl⟩ : ∃ mid' c, mid = mid' ++ [c] := ⟨_, _, (List.dropLast_concat_getLast hne).symm⟩
    have hc := hlr c (by simp)
    obtain ⟨y, ys, e1, hy⟩ := textOf_last (before := before) (after := after) (cs := lead ++ mid') (hpr c (by simp) hc) hc
      (hin c (by simp)).1 (hin c (by simp)).2
    rw [List.append_assoc] at e1
    rw [textOf_append, e1]
    rcases ht with ⟨-, rfl⟩ | ⟨m, tail', -, -, rfl⟩
    · rw [show textOf before after [] = [] from rfl, trailContext_eq (by simp) hy]
      rw [List.append_nil, ← List.append_assoc, List.getLast?_concat]
      exact (contextOf_real hc).symm
    · have e3 : textOf before after [.noChange ⟨m.b, m.a, min ctx m.n⟩] = (Change.noChange ⟨m.b, m.a, min ctx m.n⟩).text before after := by
        simp [textOf]
      rw [e3, trailContext_eq text_block hy, block _ (by simp), List.getLast?_concat]
      rfl

/-! ## The lines of a clump are a hunk -/

theorem unmark_length (ls : List Str) : (unmark ls).length = ls.length := by simp [unmark]

theorem TextClumpFacts.counts {before after : List Str} {ctx : Nat} {cc : ChangeClump} (h : TextClumpFacts before after ctx cc) :
    ((textOf before after cc.changes).filter isOld).length = cc.header.before.length ∧
    ((textOf before after cc.changes).filter isNew).length = cc.header.after.length := by
  constructor
  · rw [← unmark_length, textOf_old h.tiles, length_cut _ _ _ h.inside1]
    rfl
  · rw [← unmark_length, textOf_new, replay_length before after cc.changes _ _ _ _ h.tiles h.inside1 h.inside2]
    rfl

theorem not_enough_of_exact {sal : StartsAndLengths} {body : List Str} (hne : body ≠ []) (hb : ∀ l ∈ body, isBody l = true)
    (h1 : (body.filter isOld).length = sal.before.length) (h2 : (body.filter isNew).length = sal.after.length) :
    ¬ Enough sal body.dropLast := by
  obtain ⟨ys, y, rfl⟩ : ∃ ys y, body = ys ++ [y] := ⟨_, _, (List.dropLast_concat_getLast hne).symm⟩
  rw [List.dropLast_concat]
  unfold Enough
  have hy := hb y (by simp)
  unfold isBody at hy
  simp only [List.filter_append, List.length_append, List.filter_cons, List.filter_nil] at h1 h2
  rcases Bool.or_eq_true _ _ ▸ hy with hy | hy <;> simp only [hy, if_true, List.length_singleton] at h1 h2 <;> omega

theorem TextClumpFacts.isHunk {p : Profile} {before after : List Str} {ctx : Nat} {cc : ChangeClump}
    (h : TextClumpFacts before after ctx cc) (hctx : p = .debug → ctx ≤ 128) :
    IsHunk p cc.header (textOf before after cc.changes) := by
  obtain ⟨h1, h2⟩ := h.counts
  refine ⟨textOf_body, ⟨by omega, by omega⟩, .inr (not_enough_of_exact h.nonempty textOf_body h1 h2), ?_⟩
  intro hp
  have := hctx hp
  obtain ⟨changes, hs, ha, -⟩ := h.stretch
  have := shortRuns_textOf (before := before) (after := after) h.tiles h.inside1 h.inside2 h.proper (hs.alternating ha)
    (fun c hc => by have := hs.block_le hc; omega) [] .nil (.inl (by decide))
  simpa using this

/-! ## Lines and texts -/

theorem splitInclusive_ended {l : Str} (h : WholeLine l) (rest : Str) : splitInclusive (l ++ rest) = l :: splitInclusive rest := by
  obtain ⟨x, rfl, hx⟩ := h
  induction x with
  | nil =>
    rw [List.nil_append, List.singleton_append, splitInclusive_newline]
  | cons c x ih =>
    rw [List.cons_append, List.cons_append]
    exact splitInclusive_cons (by rintro rfl; simp at hx) (ih (by intro h; exact hx (by simp [h])))

theorem splitInclusive_flatten {ls : List Str} (h : ∀ l ∈ ls, WholeLine l) (rest : Str) :
    splitInclusive (ls.flatten ++ rest) = ls ++ splitInclusive rest := by
  induction ls with
  | nil => rfl
  | cons l ls ih =>
    rw [List.flatten_cons, List.append_assoc, splitInclusive_ended (h l (by simp)), ih (fun x hx => h x (by simp [hx]))]
    rfl

theorem ended_splitInclusive {s : Str} (h : EndsWell s) : ∀ l ∈ splitInclusive s, WholeLine l := by
  rcases h with rfl | ⟨x, rfl⟩
  · simp [splitInclusive]
  · induction x with
    | nil =>
      rw [List.nil_append, splitInclusive_newline]
      intro l hl
      simp only [splitInclusive, List.mem_singleton] at hl
      subst hl
      exact ⟨[], rfl, by simp⟩
    | cons c x ih =>
      rw [List.cons_append]
      by_cases hc : c = '\n'
      · subst hc
        rw [splitInclusive_newline]
        intro l hl
        rcases List.mem_cons.1 hl with rfl | hl
        · exact ⟨[], rfl, by simp⟩
        · exact ih l hl
      · cases hs : splitInclusive (x ++ ['\n']) with
        | nil =>
          have := congrArg List.flatten hs
          rw [flatten_splitInclusive] at this
          simp at this
        | cons y ys =>
          rw [splitInclusive_cons hc hs]
          intro l hl
          rw [hs] at ih
          rcases List.mem_cons.1 hl with rfl | hl
          · obtain ⟨z, e, hz⟩ := ih y (by simp)
            exact ⟨c :: z, by rw [e]; rfl, by simp [hz, Ne.symm hc]⟩
          · exact ih l (by simp [hl])

theorem splitInclusive_append {s : Str} (h : EndsWell s) (rest : Str) :
    splitInclusive (s ++ rest) = splitInclusive s ++ splitInclusive rest := by
  conv => lhs; rw [← flatten_splitInclusive s]
  exact splitInclusive_flatten (ended_splitInclusive h) rest

theorem noMark_splitInclusive {s : Str} (h : s.head? ≠ some '\\') : NoMark (splitInclusive s) := by
  intro l r e hl
  apply h
  have := flatten_splitInclusive s
  rw [e] at this
  cases l with
  | nil => simp at hl
  | cons c l =>
    rw [← this]
    simpa using hl

/-- The lines of a clump of texts with newlines at the end. -/
theorem textOf_ended {before after : List Str} {cs : List Change} (hb : ∀ l ∈ before, WholeLine l) (ha : ∀ l ∈ after, WholeLine l) :
    ∀ l ∈ textOf before after cs, WholeLine l := by
  intro l hl
  obtain ⟨m, y, hm, hy, rfl⟩ := mem_textOf hl
  obtain ⟨x, rfl, hx⟩ : WholeLine y := by
    rcases hy with hy | hy
    · exact hb y hy
    · exact ha y hy
  refine ⟨m :: x, rfl, ?_⟩
  rcases hm with rfl | rfl | rfl <;> simpa using hx

theorem closed_ended {body : List Str} (hne : body ≠ []) (h : ∀ l ∈ body, WholeLine l) : closed body = body := by
  unfold closed
  obtain ⟨x, hx, -⟩ := h _ (List.getLast_mem hne)
  rw [List.getLast?_eq_some_getLast hne, Option.bind_some, hx, List.getLast?_concat, if_pos rfl]

end PwDiff
