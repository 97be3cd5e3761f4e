import Verif.Proofs.UnifiedHunk

/-! # `get_from_at` -/

namespace PwDiff

variable {nd : Digits}

theorem stateOf_nil : stateOf [] = {} := rfl

/-- What `get_from_at` does after the header line. -/
def afterHeader (p : Profile) (start : Nat) (sal : StartsAndLengths) (ls : List Str) :
    Outcome (ParseResult (Option UnifiedDiffClump)) := do
  let r ← hunkLoop p start sal ls {}
  match r with
  | .error e => return .error e
  | .ok (st, rest) => do
    let (b, a, consumed) ← hunkEnd st rest
    return .ok (some ⟨sal, b, a, (st.startContext, st.endContext), consumed⟩)

theorem getFromAt_beyond (p : Profile) (lines : List Str) (start : Nat) (h : lines.length < start) :
    getFromAt p nd lines start = .panic := by
  unfold getFromAt subsequence slice rangeFrom
  rw [if_neg (by simp; omega)]
  rfl

theorem getFromAt_end (p : Profile) (lines : List Str) : getFromAt p nd lines lines.length = .ok (.ok none) := by
  unfold getFromAt subsequence slice rangeFrom
  rw [if_pos (by simp)]
  simp

theorem getFromAt_cons (p : Profile) (pre : List Str) (header : Str) (ls : List Str) :
    getFromAt p nd (pre ++ header :: ls) pre.length =
      match startsAndLengths nd header pre.length with
      | .error e => .ok (.error e)
      | .ok none => .ok (.ok none)
      | .ok (some sal) => afterHeader p pre.length sal ls := by
  unfold getFromAt subsequence slice rangeFrom
  rw [if_pos (by simp)]
  have : List.take ((pre ++ header :: ls).length - pre.length) (List.drop pre.length (pre ++ header :: ls)) = header :: ls := by
    simp
  dsimp only
  rw [this]
  rfl

theorem dropWhile_nil_iff {α : Type} {f : α → Bool} {l : List α} : l.dropWhile f = [] ↔ ∀ x ∈ l, f x = true := by
  induction l with
  | nil => simp
  | cons a l ih =>
    rw [List.dropWhile_cons]
    split
    · rename_i h; simp [ih, h]
    · rename_i h; simp [h]

theorem trimEnd_eq (s : Str) : trimEnd s = stripEnd s := by
  have aux : ∀ s : Str, s.all isWhite = true → trimEnd s = [] := by
    intro s h
    unfold trimEnd
    rw [List.reverse_eq_nil_iff, dropWhile_nil_iff]
    intro x hx
    exact List.all_eq_true.mp h x (List.mem_reverse.mp hx)
  induction s with
  | nil => rfl
  | cons c s ih =>
    unfold stripEnd
    split
    · rename_i h; exact aux _ h
    · rename_i h
      rw [← ih]
      unfold trimEnd
      rw [List.reverse_cons, List.dropWhile_append]
      split
      · rename_i h'
        rw [List.isEmpty_iff, dropWhile_nil_iff] at h'
        have hs : s.all isWhite = true := List.all_eq_true.mpr fun x hx => h' x (List.mem_reverse.mpr hx)
        have hc : isWhite c = false := by
          cases hcw : isWhite c
          · rfl
          · exact absurd (by simp [hcw, hs]) h
        have : List.dropWhile isWhite s.reverse = [] := dropWhile_nil_iff.mpr h'
        rw [this]
        simp [List.dropWhile, hc]
      · simp

theorem trimLast_eq {ls : List Str} (h : ls ≠ []) : trimLast ls = .ok (trimmed ls) := by
  unfold trimLast trimmed
  rw [List.getLast?_eq_some_getLast h]
  simp only [trimEnd_eq]
  rfl

theorem filter_ne_nil_of_last {f : Str → Bool} {body : List Str} {l : Str} (h : body.getLast? = some l) (hf : f l = true) :
    body.filter f ≠ [] := by
  intro he
  rw [List.filter_eq_nil_iff] at he
  exact he l (List.mem_of_getLast? h) hf

theorem hunkEnd_noMark {body rest : List Str} (h : NoMark rest) :
    hunkEnd (stateOf body) rest = .ok (body.filter isOld, body.filter isNew, body.length + 1) := by
  unfold hunkEnd
  cases rest with
  | nil => rfl
  | cons l r =>
    simp only [List.head?_cons]
    rw [if_neg (h l r rfl)]
    rfl

theorem hunkEnd_mark {body r : List Str} {l : Str} (hb : ∀ x ∈ body, isBody x = true) (hl : l.head? = some '\\') :
    hunkEnd (stateOf body) (l :: r) =
      if body = [] then .panic
      else if lastOf body = .plus then .ok (body.filter isOld, trimmed (body.filter isNew), body.length + 2)
      else .ok (trimmed (body.filter isOld), body.filter isNew, body.length + 2) := by
  unfold hunkEnd
  simp only [List.head?_cons, hl, if_true]
  by_cases hne : body = []
  · subst hne
    rw [if_pos rfl]
    rfl
  · rw [if_neg hne]
    have hlast := List.getLast?_eq_some_getLast hne
    have hmem := List.getLast_mem hne
    cases hk : lastOf body with
    | none =>
      unfold lastOf at hk
      rw [hlast] at hk
      dsimp only at hk
      split at hk <;> cases hk
    | plus =>
      rw [if_pos rfl]
      have hplus : (body.getLast hne).head? = some '+' := by
        unfold lastOf at hk
        rw [hlast] at hk
        dsimp only at hk
        split at hk
        · assumption
        · cases hk
      have : (stateOf body).last = .plus := hk
      rw [this]
      dsimp only
      have h2 : (stateOf body).afterLines = body.filter isNew := rfl
      rw [h2, trimLast_eq (filter_ne_nil_of_last hlast (by simp [isNew, hplus]))]
      rfl
    | minus =>
      rw [if_neg (by simp)]
      have hplus : (body.getLast hne).head? ≠ some '+' := by
        unfold lastOf at hk
        rw [hlast] at hk
        dsimp only at hk
        split at hk
        · cases hk
        · assumption
      have : (stateOf body).last = .minus := hk
      rw [this]
      dsimp only
      have h2 : (stateOf body).beforeLines = body.filter isOld := rfl
      have hold : isOld (body.getLast hne) = true := by
        have := hb _ hmem
        rw [isBody_cases] at this
        simp only [Bool.or_eq_true, beq_iff_eq] at this
        unfold isOld isContext
        simp only [Bool.or_eq_true, beq_iff_eq]
        rcases this with (h | h) | h
        · exact .inl h
        · exact absurd h hplus
        · exact .inr h
      rw [h2, trimLast_eq (filter_ne_nil_of_last hlast hold)]
      rfl

/-! ## The header -/

theorem Announces.starts {l : Str} {sal : StartsAndLengths} (h : Announces nd l sal) (k : Nat) :
    startsAndLengths nd l k = .ok (some sal) := by
  obtain ⟨d1, e1, d2, e2, hh, h1, h2⟩ := h
  rcases startsAndLengths_header hh k with ⟨s, e, g1, g2⟩ | ⟨-, hn⟩
  · rw [e]
    have e1 := g1.unique h1
    have e2 := g2.unique h2
    cases s; cases sal
    simp_all
  · exact absurd ⟨h1, h2⟩ (hn sal)

theorem startsAndLengths_cases (l : Str) (k : Nat) :
    (¬ IsHeader nd l ∧ startsAndLengths nd l k = .ok none) ∨
    (IsHeader nd l ∧ (∀ sal, ¬ Announces nd l sal) ∧ startsAndLengths nd l k = .error (.parseNumberError k)) ∨
    ∃ sal, Announces nd l sal ∧ startsAndLengths nd l k = .ok (some sal) := by
  by_cases hh : IsHeader nd l
  · obtain ⟨d1, e1, d2, e2, hh⟩ := hh
    rcases startsAndLengths_header hh k with ⟨s, e, g1, g2⟩ | ⟨he, hn⟩
    · exact .inr (.inr ⟨s, ⟨d1, e1, d2, e2, hh, g1, g2⟩, e⟩)
    · refine .inr (.inl ⟨⟨d1, e1, d2, e2, hh⟩, ?_, he⟩)
      intro sal ha
      have := ha.starts k
      rw [he] at this
      cases this
  · refine .inl ⟨hh, ?_⟩
    unfold startsAndLengths
    cases hc : Rx.captures (clumpHeaderRx nd) l with
    | none => rfl
    | some caps => exact absurd (header_of_captures hc) hh

/-! ## The loop, forwards -/

theorem hunkLoop_done {p : Profile} {i : Nat} {sal : StartsAndLengths} {body ls : List Str} (h : Enough sal body) :
    hunkLoop p i sal ls (stateOf body) = .ok (.ok (stateOf body, ls)) := by
  unfold hunkLoop
  rw [if_neg]
  unfold Enough at h
  simp only [stateOf]
  omega

theorem hunkLoop_step {p : Profile} {i : Nat} {sal : StartsAndLengths} {body ls : List Str} {l : Str} (h : ¬ Enough sal body)
    (hl : isBody l = true) (hb : p = .debug → endRun body < 256) :
    hunkLoop p i sal (l :: ls) (stateOf body) =
      if p = .debug ∧ endRun (body ++ [l]) = 256 then .panic else hunkLoop p i sal ls (stateOf (body ++ [l])) := by
  have hc : (stateOf body).beforeLines.length < sal.before.length ∨ (stateOf body).afterLines.length < sal.after.length := by
    unfold Enough at h
    simp only [stateOf]
    omega
  conv => lhs; unfold hunkLoop
  rw [if_pos hc]
  dsimp only
  split
  · rename_i hl
    have hz : endRun (body ++ [l]) = 0 := by rw [endRun_snoc]; simp [isContext, hl]
    rw [stateOf_minus body l hl, if_neg (by omega)]
  · rename_i hl
    have hz : endRun (body ++ [l]) = 0 := by rw [endRun_snoc]; simp [isContext, hl]
    rw [stateOf_plus body l hl, if_neg (by omega)]
  · rename_i hl
    have hc : isContext l = true := by simp [isContext, hl]
    have hz : endRun (body ++ [l]) = endRun body + 1 := by rw [endRun_snoc, if_pos hc]
    have key : ∀ (n : Nat) (f : Nat → HunkState), n = endRun body % 256 → f ((endRun body + 1) % 256) = stateOf (body ++ [l]) →
        (u8incr p n >>= fun m => hunkLoop p i sal ls (f m)) =
          if p = .debug ∧ endRun (body ++ [l]) = 256 then .panic else hunkLoop p i sal ls (stateOf (body ++ [l])) := by
      intro n f hn hf
      by_cases hov : p = .debug ∧ endRun (body ++ [l]) = 256
      · obtain ⟨rfl, hov⟩ := hov
        rw [if_pos ⟨rfl, hov⟩]
        have : u8incr .debug n = .panic := by
          unfold u8incr
          rw [if_neg (by omega)]
        rw [this, Outcome.panic_bind]
      · rw [if_neg hov]
        have : u8incr p n = .ok ((endRun body + 1) % 256) := by
          unfold u8incr
          split
          · exact congrArg Outcome.ok (by omega)
          · cases p with
            | debug =>
              have := hb rfl
              simp only [true_and] at hov
              omega
            | release => exact congrArg Outcome.ok (by omega)
        rw [this, Outcome.ok_bind, hf]
    split
    · rename_i hb
      simp only [stateOf] at hb
      refine key _ _ ?_ (stateOf_front body l hl hb).symm
      simp only [stateOf]
      rw [leadContext_all hb, endRun_all hb]
    · rename_i hb
      simp only [stateOf, Bool.not_eq_true] at hb
      refine key _ _ ?_ (stateOf_back body l hl hb).symm
      simp only [stateOf, trailContext, hb]
      simp
  · rename_i h1 h2 h3
    simp only [isBody_cases, Bool.or_eq_true, beq_iff_eq] at hl
    rcases hl with (hl | hl) | hl
    · exact absurd hl h1
    · exact absurd hl h2
    · exact absurd hl h3

theorem Enough.mono {sal : StartsAndLengths} {xs ys : List Str} (h : Enough sal xs) : Enough sal (xs ++ ys) := by
  unfold Enough at *
  simp only [List.filter_append, List.length_append]
  omega

/-- Reading lines that are not yet enough. -/
theorem hunkLoop_part {p : Profile} {i : Nat} {sal : StartsAndLengths} {more ls : List Str} (body : List Str)
    (hl : ∀ l ∈ more, isBody l = true) (hne : more = [] ∨ ¬ Enough sal (body ++ more.dropLast))
    (hr : p = .debug → ShortRuns (body ++ more)) :
    hunkLoop p i sal (more ++ ls) (stateOf body) = hunkLoop p i sal ls (stateOf (body ++ more)) := by
  induction more generalizing body with
  | nil => simp
  | cons l more ih =>
    have hne' : ¬ Enough sal (body ++ (l :: more).dropLast) := by
      rcases hne with h | h
      · cases h
      · exact h
    have h0 : ¬ Enough sal body := fun h => hne' h.mono
    have e : body ++ l :: more = body ++ [l] ++ more := by simp
    rw [List.cons_append, hunkLoop_step h0 (hl l (by simp)) (fun hp => hr hp body _ rfl), if_neg, ih, e]
    · exact fun x hx => hl x (by simp [hx])
    · by_cases hm : more = []
      · exact .inl hm
      · refine .inr ?_
        rw [List.dropLast_cons_of_ne_nil hm] at hne'
        simpa using hne'
    · intro hp
      rw [← e]
      exact hr hp
    · rintro ⟨hp, h256⟩
      have := hr hp (body ++ [l]) more e
      omega

theorem ShortRuns.nil : ShortRuns [] := by
  intro pre post h
  have : pre = [] := by
    cases pre with
    | nil => rfl
    | cons x xs => cases h
  subst this
  decide

/-- The description determines what the function does. -/
theorem Parses.eq {p : Profile} {lines : List Str} {start : Nat} {o : Outcome (ParseResult (Option UnifiedDiffClump))}
    (h : Parses p nd lines start o) : getFromAt p nd lines start = o := by
  have part : ∀ {sal : StartsAndLengths} {body ls : List Str} {i : Nat}, IsPart p sal body →
      hunkLoop p i sal (body ++ ls) {} = hunkLoop p i sal ls (stateOf body) := by
    intro sal body ls i hp
    have := hunkLoop_part (p := p) (i := i) (sal := sal) (more := body) (ls := ls) [] hp.lines
      (.inr fun h => hp.short (by
        have : Enough sal (body.dropLast ++ body.drop (body.length - 1)) := Enough.mono (by simpa using h)
        rwa [List.dropLast_eq_take, List.take_append_drop] at this)) (by simpa using hp.runs)
    rw [stateOf_nil] at this
    simpa using this
  have hunk : ∀ {sal : StartsAndLengths} {body ls : List Str} {i : Nat}, IsHunk p sal body →
      hunkLoop p i sal (body ++ ls) {} = .ok (.ok (stateOf body, ls)) := by
    intro sal body ls i hp
    have := hunkLoop_part (p := p) (i := i) (sal := sal) (more := body) (ls := ls) [] hp.lines
      (by simpa using hp.least) (by simpa using hp.runs)
    rw [stateOf_nil, List.nil_append, hunkLoop_done hp.enough] at this
    exact this
  cases h with
  | beyond h => exact getFromAt_beyond p _ _ h
  | atEnd => exact getFromAt_end p _
  | @noHeader pre l ls h =>
    rw [getFromAt_cons]
    rcases startsAndLengths_cases (nd := nd) l pre.length with ⟨-, e⟩ | ⟨h1, -, -⟩ | ⟨sal, ⟨d1, e1, d2, e2, h1, -⟩, -⟩
    · rw [e]
    · exact absurd h1 h
    · exact absurd ⟨d1, e1, d2, e2, h1⟩ h
  | @badNumber pre l ls h hn =>
    rw [getFromAt_cons]
    rcases startsAndLengths_cases (nd := nd) l pre.length with ⟨h1, -⟩ | ⟨-, -, e⟩ | ⟨sal, h1, -⟩
    · exact absurd h h1
    · rw [e]
    · exact absurd h1 (hn sal)
  | @endOfInput pre l sal ls h hp =>
    rw [getFromAt_cons, h.starts]
    dsimp only
    unfold afterHeader
    have := part (i := pre.length) (ls := []) hp
    rw [List.append_nil] at this
    rw [this]
    have h2 : hunkLoop p pre.length sal [] (stateOf ls) = .ok (.error .unexpectedEndOfInput) := by
      unfold hunkLoop
      rw [if_pos]
      have := hp.short
      unfold Enough at this
      simp only [stateOf]
      omega
    rw [h2]
    rfl
  | @badLine pre l sal body x rest h hp hx =>
    rw [getFromAt_cons, h.starts]
    dsimp only
    unfold afterHeader
    rw [part hp]
    have h2 : hunkLoop p pre.length sal (x :: rest) (stateOf body) =
        .ok (.error (.unexpectedEndClump (pre.length + body.length + 1))) := by
      unfold hunkLoop
      rw [if_pos]
      · dsimp only
        rw [isBody_cases] at hx
        simp only [Bool.or_eq_false_iff, beq_eq_false_iff_ne, ne_eq] at hx
        split
        · rename_i h; exact absurd h hx.1.1
        · rename_i h; exact absurd h hx.1.2
        · rename_i h; exact absurd h hx.2
        · rfl
      · have := hp.short
        unfold Enough at this
        simp only [stateOf]
        omega
    rw [h2]
    rfl
  | @overflow pre l sal body x rest h hp hd hx hr =>
    rw [getFromAt_cons, h.starts]
    dsimp only
    unfold afterHeader
    rw [part hp, hunkLoop_step hp.short (by simp [isBody, isOld, hx]) (by omega), if_pos ⟨hd, by rw [endRun_snoc, if_pos hx, hr]⟩]
    rfl
  | @markAlone pre l sal x rest h hs hx =>
    rw [getFromAt_cons, h.starts]
    dsimp only
    unfold afterHeader
    have hh : IsHunk p sal [] := ⟨by simp, by unfold Enough; omega, .inl rfl, fun _ => .nil⟩
    have := hunk (i := pre.length) (ls := x :: rest) hh
    rw [List.nil_append] at this
    rw [this, Outcome.ok_bind]
    dsimp only
    rw [hunkEnd_mark (by simp) hx, if_pos rfl]
    rfl
  | @hunk pre l sal body rest h hb hm =>
    rw [getFromAt_cons, h.starts]
    dsimp only
    unfold afterHeader
    rw [hunk hb, Outcome.ok_bind]
    dsimp only
    rw [hunkEnd_noMark hm]
    rfl
  | @hunkNew pre l sal body x rest y h hb hx hy hyn =>
    rw [getFromAt_cons, h.starts]
    dsimp only
    unfold afterHeader
    rw [hunk hb, Outcome.ok_bind]
    dsimp only
    have hl : lastOf body = .plus := by simp [lastOf, hy, hyn]
    rw [hunkEnd_mark hb.lines hx, if_neg (by rintro rfl; simp at hy), if_pos hl]
    rfl
  | @hunkOld pre l sal body x rest y h hb hx hy hyn =>
    rw [getFromAt_cons, h.starts]
    dsimp only
    unfold afterHeader
    rw [hunk hb, Outcome.ok_bind]
    dsimp only
    have hl : lastOf body ≠ .plus := by simp [lastOf, hy, hyn]
    rw [hunkEnd_mark hb.lines hx, if_neg (by rintro rfl; simp at hy), if_neg hl]
    rfl

/-- Some case of the description always applies. -/
theorem Parses.total (p : Profile) (lines : List Str) (start : Nat) : ∃ o, Parses p nd lines start o := by
  by_cases hlt : lines.length < start
  · exact ⟨_, .beyond hlt⟩
  by_cases heq : lines.length = start
  · subst heq
    exact ⟨_, .atEnd⟩
  obtain ⟨pre, l, ls, rfl, rfl⟩ : ∃ pre l ls, lines = pre ++ l :: ls ∧ pre.length = start := by
    refine ⟨lines.take start, lines[start], lines.drop (start + 1), ?_, by simp; omega⟩
    rw [← List.drop_eq_getElem_cons (by omega), List.take_append_drop]
  rcases startsAndLengths_cases (nd := nd) l pre.length with ⟨h1, -⟩ | ⟨h1, h2, -⟩ | ⟨sal, h1, -⟩
  · exact ⟨_, .noHeader h1⟩
  · exact ⟨_, .badNumber h1 h2⟩
  have hrun := hunkLoop_run p pre.length sal ls [] (fun _ => by decide)
  have runs : ∀ {more : List Str}, (p = .debug → ∀ pre post, more = pre ++ post → pre ≠ [] → endRun ([] ++ pre) < 256) →
      p = .debug → ShortRuns more := by
    intro more h hp a b hab
    by_cases ha : a = []
    · subst ha; decide
    · simpa using h hp a b hab ha
  generalize hunkLoop p pre.length sal ls (stateOf []) = o at hrun
  cases hrun with
  | enough more rest g1 g2 g3 g4 =>
    have hh : IsHunk p sal more := ⟨g1, by simpa using g2, by simpa using g3, runs g4⟩
    by_cases hm : NoMark rest
    · exact ⟨_, .hunk h1 hh hm⟩
    · unfold NoMark at hm
      simp only [ne_eq, Classical.not_forall, Decidable.not_not] at hm
      obtain ⟨x, r, rfl, hx⟩ := hm
      by_cases hne : more = []
      · subst hne
        have := hh.enough
        unfold Enough at this
        simp only [List.filter_nil, List.length_nil] at this
        exact ⟨_, .markAlone (sal := sal) h1 (by omega) hx⟩
      · have hlast := List.getLast?_eq_some_getLast hne
        by_cases hy : (more.getLast hne).head? = some '+'
        · exact ⟨_, .hunkNew h1 hh hx hlast hy⟩
        · exact ⟨_, .hunkOld h1 hh hx hlast hy⟩
  | short more g1 g2 g4 => exact ⟨_, .endOfInput h1 ⟨g1, by simpa using g2, runs g4⟩⟩
  | bad more x rest g1 g2 g3 g4 => exact ⟨_, .badLine h1 ⟨g1, by simpa using g2, runs g4⟩ g3⟩
  | overflow more x rest g1 g2 g3 hp g4 g5 =>
    exact ⟨_, .overflow h1 ⟨g1, by simpa using g2, runs fun _ => g4⟩ hp g3 (by simpa using g5)⟩

end PwDiff
