import Verif.Proofs.UnifiedHeader

/-! # The hunk parser -/

namespace PwDiff

/-- The kind of the last line read. -/
def lastOf (body : List Str) : LastLine :=
  match body.getLast? with
  | none => .none
  | some l => if l.head? = some '+' then .plus else .minus

/-- The local variables of the parser after it has read `body`. -/
def stateOf (body : List Str) : HunkState where
  startContext := leadContext body % 256
  endContext := trailContext body % 256
  atTheFront := body.all isContext
  beforeLines := body.filter isOld
  afterLines := body.filter isNew
  index := body.length
  last := lastOf body

theorem endRun_snoc (body : List Str) (l : Str) :
    endRun (body ++ [l]) = if isContext l then endRun body + 1 else 0 := by
  unfold endRun
  rw [List.reverse_append, List.reverse_singleton, List.singleton_append, List.takeWhile_cons]
  split <;> simp

theorem takeWhile_snoc_all {α : Type} (f : α → Bool) (xs : List α) (y : α) (h : xs.all f = true) :
    (xs ++ [y]).takeWhile f = if f y then xs ++ [y] else xs := by
  induction xs with
  | nil => simp [List.takeWhile_cons]
  | cons x xs ih =>
    simp only [List.all_cons, Bool.and_eq_true] at h
    rw [List.cons_append, List.takeWhile_cons, if_pos h.1, ih h.2]
    split <;> rfl

theorem takeWhile_snoc_stop {α : Type} (f : α → Bool) (xs : List α) (y : α) (h : xs.all f = false) :
    (xs ++ [y]).takeWhile f = xs.takeWhile f := by
  induction xs with
  | nil => simp at h
  | cons x xs ih =>
    rw [List.cons_append, List.takeWhile_cons, List.takeWhile_cons]
    split
    · rename_i hx
      simp only [List.all_cons, hx, Bool.true_and] at h
      rw [ih h]
    · rfl

theorem takeWhile_all_self {α : Type} (f : α → Bool) (xs : List α) (h : xs.all f = true) : xs.takeWhile f = xs := by
  induction xs with
  | nil => rfl
  | cons x xs ih =>
    simp only [List.all_cons, Bool.and_eq_true] at h
    rw [List.takeWhile_cons, if_pos h.1, ih h.2]

theorem leadContext_all {body : List Str} (h : body.all isContext = true) : leadContext body = body.length := by
  unfold leadContext
  rw [takeWhile_all_self _ _ h]

theorem endRun_all {body : List Str} (h : body.all isContext = true) : endRun body = body.length := by
  unfold endRun
  rw [takeWhile_all_self, List.length_reverse]
  rw [List.all_reverse]
  exact h

theorem lastOf_snoc (body : List Str) (l : Str) :
    lastOf (body ++ [l]) = if l.head? = some '+' then .plus else .minus := by
  simp [lastOf]

theorem stateOf_minus (body : List Str) (l : Str) (h : l.head? = some '-') :
    stateOf (body ++ [l]) = { stateOf body with
      beforeLines := (stateOf body).beforeLines ++ [l], endContext := 0, atTheFront := false, last := .minus,
      index := (stateOf body).index + 1 } := by
  have hc : isContext l = false := by simp [isContext, h]
  have ho : isOld l = true := by simp [isOld, h]
  have hn : isNew l = false := by simp [isNew, h, hc]
  have hall : (body ++ [l]).all isContext = false := by simp [hc]
  have hlead : leadContext (body ++ [l]) = leadContext body := by
    unfold leadContext
    cases hb : body.all isContext with
    | true => rw [takeWhile_snoc_all _ _ _ hb, hc, takeWhile_all_self _ _ hb]; simp
    | false => rw [takeWhile_snoc_stop _ _ _ hb]
  simp only [stateOf, hlead, hall, trailContext, endRun_snoc, hc, lastOf_snoc, h, List.filter_append, List.length_append]
  simp [ho, hn]

theorem stateOf_plus (body : List Str) (l : Str) (h : l.head? = some '+') :
    stateOf (body ++ [l]) = { stateOf body with
      afterLines := (stateOf body).afterLines ++ [l], endContext := 0, atTheFront := false, last := .plus,
      index := (stateOf body).index + 1 } := by
  have hc : isContext l = false := by simp [isContext, h]
  have ho : isOld l = false := by simp [isOld, h, hc]
  have hn : isNew l = true := by simp [isNew, h]
  have hall : (body ++ [l]).all isContext = false := by simp [hc]
  have hlead : leadContext (body ++ [l]) = leadContext body := by
    unfold leadContext
    cases hb : body.all isContext with
    | true => rw [takeWhile_snoc_all _ _ _ hb, hc, takeWhile_all_self _ _ hb]; simp
    | false => rw [takeWhile_snoc_stop _ _ _ hb]
  simp only [stateOf, hlead, hall, trailContext, endRun_snoc, hc, lastOf_snoc, h, List.filter_append, List.length_append]
  simp [ho, hn]

theorem stateOf_front (body : List Str) (l : Str) (h : l.head? = some ' ') (hb : body.all isContext = true) :
    stateOf (body ++ [l]) = { stateOf body with
      beforeLines := (stateOf body).beforeLines ++ [l], afterLines := (stateOf body).afterLines ++ [l],
      startContext := (endRun body + 1) % 256, last := .minus, index := (stateOf body).index + 1 } := by
  have hc : isContext l = true := by simp [isContext, h]
  have ho : isOld l = true := by simp [isOld, hc]
  have hn : isNew l = true := by simp [isNew, hc]
  have hall : (body ++ [l]).all isContext = true := by simpa [hc] using hb
  have hlead : leadContext (body ++ [l]) = endRun body + 1 := by
    rw [leadContext_all hall, endRun_all hb]; simp
  simp only [stateOf, hlead, hall, trailContext, hb, lastOf_snoc, h, List.filter_append, List.length_append]
  simp [ho, hn]

theorem stateOf_back (body : List Str) (l : Str) (h : l.head? = some ' ') (hb : body.all isContext = false) :
    stateOf (body ++ [l]) = { stateOf body with
      beforeLines := (stateOf body).beforeLines ++ [l], afterLines := (stateOf body).afterLines ++ [l],
      endContext := (endRun body + 1) % 256, last := .minus, index := (stateOf body).index + 1 } := by
  have hc : isContext l = true := by simp [isContext, h]
  have ho : isOld l = true := by simp [isOld, hc]
  have hn : isNew l = true := by simp [isNew, hc]
  have hall : (body ++ [l]).all isContext = false := by
    rw [List.all_append, hb, Bool.false_and]
  have hlead : leadContext (body ++ [l]) = leadContext body := by
    unfold leadContext
    rw [takeWhile_snoc_stop _ _ _ hb]
  simp only [stateOf, hlead, hall, trailContext, hb, endRun_snoc, hc, lastOf_snoc, h, List.filter_append, List.length_append]
  simp [ho, hn]

/-- What happens when the parser has read `body` and `ls` follows. -/
inductive HunkRun (p : Profile) (startIndex : Nat) (sal : StartsAndLengths) (body : List Str) :
    List Str → Outcome (ParseResult (HunkState × List Str)) → Prop where
  | enough (more rest : List Str) (h1 : ∀ l ∈ more, isBody l = true) (h2 : Enough sal (body ++ more))
      (h3 : more = [] ∨ ¬ Enough sal (body ++ more.dropLast))
      (h4 : p = .debug → ∀ pre post, more = pre ++ post → pre ≠ [] → endRun (body ++ pre) < 256) :
      HunkRun p startIndex sal body (more ++ rest) (.ok (.ok (stateOf (body ++ more), rest)))
  | short (more : List Str) (h1 : ∀ l ∈ more, isBody l = true) (h2 : ¬ Enough sal (body ++ more))
      (h4 : p = .debug → ∀ pre post, more = pre ++ post → pre ≠ [] → endRun (body ++ pre) < 256) :
      HunkRun p startIndex sal body more (.ok (.error .unexpectedEndOfInput))
  | bad (more : List Str) (l : Str) (rest : List Str) (h1 : ∀ l ∈ more, isBody l = true)
      (h2 : ¬ Enough sal (body ++ more)) (h3 : isBody l = false)
      (h4 : p = .debug → ∀ pre post, more = pre ++ post → pre ≠ [] → endRun (body ++ pre) < 256) :
      HunkRun p startIndex sal body (more ++ l :: rest)
        (.ok (.error (.unexpectedEndClump (startIndex + (body.length + more.length) + 1))))
  | overflow (more : List Str) (l : Str) (rest : List Str) (h1 : ∀ l ∈ more, isBody l = true)
      (h2 : ¬ Enough sal (body ++ more)) (h3 : isContext l = true) (hp : p = .debug)
      (h4 : ∀ pre post, more = pre ++ post → pre ≠ [] → endRun (body ++ pre) < 256)
      (h5 : endRun (body ++ more) = 255) :
      HunkRun p startIndex sal body (more ++ l :: rest) .panic

theorem not_enough_snoc {sal : StartsAndLengths} {xs : List Str} {l : Str} (h : Enough sal xs) : Enough sal (xs ++ [l]) := by
  unfold Enough at *
  simp only [List.filter_append, List.length_append]
  omega

theorem HunkRun.cons {p : Profile} {i : Nat} {sal : StartsAndLengths} {body ls : List Str} {l : Str}
    {o : Outcome (ParseResult (HunkState × List Str))} (hl : isBody l = true) (hne : ¬ Enough sal body)
    (hr : p = .debug → endRun (body ++ [l]) < 256)
    (h : HunkRun p i sal (body ++ [l]) ls o) : HunkRun p i sal body (l :: ls) o := by
  have ext : ∀ more : List Str, (∀ pre post, more = pre ++ post → pre ≠ [] → endRun (body ++ [l] ++ pre) < 256) →
      endRun (body ++ [l]) < 256 → ∀ pre post, l :: more = pre ++ post → pre ≠ [] → endRun (body ++ pre) < 256 := by
    intro more h1 h2 pre post h3 h4
    cases pre with
    | nil => exact absurd rfl h4
    | cons x pre =>
      injection h3 with h3 h5
      subst h3
      by_cases hp : pre = []
      · subst hp; exact h2
      · have := h1 pre post h5 hp
        rwa [List.append_assoc] at this
  cases h with
  | enough more rest h1 h2 h3 h4 =>
    rw [← List.cons_append]
    have e : body ++ [l] ++ more = body ++ (l :: more) := by simp
    rw [e] at h2 ⊢
    refine .enough (l :: more) rest (by simpa [hl] using h1) h2 (.inr ?_) (fun hp => ext more (h4 hp) (hr hp))
    rcases h3 with rfl | h3
    · simpa using hne
    · by_cases hm : more = []
      · subst hm; simpa using hne
      · rw [List.dropLast_cons_of_ne_nil hm]
        simpa using h3
  | short more h1 h2 h4 =>
    exact .short (l :: ls) (by simpa [hl] using h1) (by simpa using h2) (fun hp => ext _ (h4 hp) (hr hp))
  | bad more l' rest h1 h2 h3 h4 =>
    rw [← List.cons_append]
    have e : i + ((body ++ [l]).length + more.length) + 1 = i + (body.length + (l :: more).length) + 1 := by
      simp; omega
    rw [e]
    exact .bad (l :: more) l' rest (by simpa [hl] using h1) (by simpa using h2) h3 (fun hp => ext more (h4 hp) (hr hp))
  | overflow more l' rest h1 h2 h3 hp h4 h5 =>
    rw [← List.cons_append]
    exact .overflow (l :: more) l' rest (by simpa [hl] using h1) (by simpa using h2) h3 hp (ext more h4 (hr hp))
      (by rw [← h5]; simp)

theorem isBody_cases (l : Str) : isBody l = (l.head? == some '-' || l.head? == some '+' || l.head? == some ' ') := by
  unfold isBody isOld isNew isContext
  cases l.head? == some '-' <;> cases l.head? == some '+' <;> cases l.head? == some ' ' <;> rfl

theorem hunkLoop_run (p : Profile) (i : Nat) (sal : StartsAndLengths) (ls body : List Str) (hp : p = .debug → endRun body < 256) :
    HunkRun p i sal body ls (hunkLoop p i sal ls (stateOf body)) := by
  induction ls generalizing body with
  | nil =>
    unfold hunkLoop
    split
    · rename_i h
      exact .short [] (by simp) (by simp only [stateOf] at h; unfold Enough; simp; omega) (by simp)
    · rename_i h
      have := HunkRun.enough (p := p) (startIndex := i) (sal := sal) (body := body) [] [] (by simp)
        (by simp only [stateOf] at h; unfold Enough; simp; omega) (.inl rfl) (by simp)
      simpa using this
  | cons l ls ih =>
    unfold hunkLoop
    split
    · rename_i h
      have hne : ¬ Enough sal body := by simp only [stateOf] at h; unfold Enough; omega
      dsimp only
      split
      · rename_i hl
        rw [← stateOf_minus body l hl]
        have hz : endRun (body ++ [l]) = 0 := by rw [endRun_snoc]; simp [isContext, hl]
        exact .cons (by simp [isBody_cases, hl]) hne (by omega) (ih _ (by omega))
      · rename_i hl
        rw [← stateOf_plus body l hl]
        have hz : endRun (body ++ [l]) = 0 := by rw [endRun_snoc]; simp [isContext, hl]
        exact .cons (by simp [isBody_cases, hl]) hne (by omega) (ih _ (by omega))
      · rename_i hl
        have hc : isContext l = true := by simp [isContext, hl]
        have hz : endRun (body ++ [l]) = endRun body + 1 := by rw [endRun_snoc, if_pos hc]
        have key : ∀ (n : Nat) (f : Nat → HunkState), n = endRun body % 256 → f ((endRun body + 1) % 256) = stateOf (body ++ [l]) →
            HunkRun p i sal body (l :: ls) (u8incr p n >>= fun m => hunkLoop p i sal ls (f m)) := by
          intro n f hn hf
          by_cases hov : endRun body + 1 < 256
          · have : u8incr p n = .ok ((endRun body + 1) % 256) := by
              unfold u8incr
              rw [if_pos (by omega)]
              congr 1
              omega
            rw [this, Outcome.ok_bind, hf]
            exact .cons (by simp [isBody_cases, hl]) hne (by omega) (ih _ (by omega))
          · cases p with
            | debug =>
              have h2 := hp rfl
              have : u8incr .debug n = .panic := by
                unfold u8incr
                rw [if_neg (by omega)]
              rw [this, Outcome.panic_bind]
              have := HunkRun.overflow (p := .debug) (startIndex := i) (sal := sal) (body := body) [] l ls (by simp)
                (by simpa using hne) hc rfl (by simp) (by simp; omega)
              simpa using this
            | release =>
              have : u8incr .release n = .ok ((endRun body + 1) % 256) := by
                unfold u8incr
                split
                · exact congrArg Outcome.ok (by omega)
                · exact congrArg Outcome.ok (by omega)
              rw [this, Outcome.ok_bind, hf]
              exact .cons (by simp [isBody_cases, hl]) hne (by simp) (ih _ (by simp))
        split
        · rename_i hb
          simp only [stateOf] at hb
          refine key _ _ ?_ (stateOf_front body l hl hb).symm
          simp only [stateOf]
          rw [leadContext_all hb, endRun_all hb]
        · rename_i hb
          simp only [stateOf, Bool.not_eq_true] at hb
          refine key _ _ ?_ (stateOf_back body l hl hb).symm
          simp only [stateOf, trailContext, hb]
          simp
      · rename_i h1 h2 h3
        have := HunkRun.bad (p := p) (startIndex := i) (sal := sal) (body := body) [] l ls (by simp)
          (by simpa using hne) (by
            rw [isBody_cases]
            simp only [Bool.or_eq_false_iff, beq_eq_false_iff_ne, ne_eq]
            exact ⟨⟨h1, h2⟩, h3⟩) (by simp)
        simpa [stateOf] using this
    · rename_i h
      have := HunkRun.enough (p := p) (startIndex := i) (sal := sal) (body := body) [] (l :: ls) (by simp)
        (by simp only [stateOf] at h; unfold Enough; simp; omega) (.inl rfl) (by simp)
      simpa using this

end PwDiff
