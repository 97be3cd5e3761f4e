import Verif.Proofs.DiffJson

/-! Reading a text to which something has been appended. -/

namespace PwDiff.Json

theorem skipSpace_append {s : Str} (h : skipSpace s ≠ []) (t : Str) : skipSpace (s ++ t) = skipSpace s ++ t := by
  induction s with
  | nil => exact absurd rfl h
  | cons c s ih =>
    unfold skipSpace at h ⊢
    simp only [List.cons_append] at h ⊢
    split
    · next hc =>
      rw [if_pos hc] at h
      exact ih h
    · rfl

theorem skipSpace_ne {s : Str} (h : skipSpace s ≠ []) : s ≠ [] := by
  rintro rfl
  exact h rfl

theorem consChar_append {c : Option Char} {a b : Option (Str × Str)} {x r t : Str} (h : consChar c a = some (x, r))
    (hab : ∀ x r, a = some (x, r) → b = some (x, r ++ t)) : consChar c b = some (x, r ++ t) := by
  cases c with
  | none => cases h
  | some c =>
    cases a with
    | none => cases h
    | some a =>
      obtain ⟨y, r'⟩ := a
      rw [hab y r' rfl]
      cases h
      rfl

theorem readString_plain {c : Char} (cs : Str) (h : c ≠ '\\') : readString (c :: cs) =
    if c = '"' then some ([], cs) else if c.toNat < 32 then none else consChar (some c) (readString cs) := by
  rw [readString.eq_def]
  split
  · simp_all
  · simp_all
  · simp_all
  · rename_i heq
    injection heq with e1 e2
    subst e1 e2
    rfl

theorem readString_esc {c : Char} (cs : Str) (h : c ≠ 'u') : readString ('\\' :: c :: cs) = consChar (unescape c) (readString cs) := by
  rw [readString.eq_def]
  split
  · simp_all
  · simp_all
  · rename_i heq
    injection heq with e1 e2
    injection e2 with e2 e3
    subst e2 e3
    rfl
  · rename_i hx heq
    injection heq with e1 e2
    exact (hx _ _ e1.symm e2.symm).elim

theorem consChar_none (r : Option (Str × Str)) : consChar none r = none := rfl

theorem readString_append (s t : Str) : ∀ x r, readString s = some (x, r) → readString (s ++ t) = some (x, r ++ t) := by
  fun_induction readString s with
  | case1 => exact fun x r h => by cases h
  | case2 => exact fun x r h => by cases h
  | case3 => exact fun x r h => by cases h
  | case4 a b c d n hn h1 e f g i cs m hm h2 ih =>
    intro x r h
    simp only [List.cons_append]
    conv => lhs; unfold readString
    simp only [hn, hm]
    rw [if_pos h1, if_pos h2]
    exact consChar_append h ih
  | case5 => exact fun x r h => by cases h
  | case6 => exact fun x r h => by cases h
  | case7 a b c d cs n hn h1 ih =>
    intro x r h
    simp only [List.cons_append]
    conv => lhs; unfold readString
    simp only [hn]
    rw [if_neg h1]
    exact consChar_append h ih
  | case8 c cs hc ih =>
    intro x r h
    by_cases hu : c = 'u'
    · subst hu
      rw [show unescape 'u' = none from rfl] at h
      cases h
    · simp only [List.cons_append]
      rw [readString_esc _ hu]
      exact consChar_append h ih
  | case9 cs => exact fun x r h => by cases h; rfl
  | case10 => exact fun x r h => by cases h
  | case11 c cs h1 h2 h3 h4 ih =>
    intro x r h
    by_cases hb : c = '\\'
    · cases cs with
      | nil => cases h
      | cons d cs => exact (h2 _ _ hb rfl).elim
    · simp only [List.cons_append]
      rw [readString_plain _ hb, if_neg h3, if_neg h4]
      exact consChar_append h ih

/-- What follows a number that is complete. -/
theorem spanDigits_append_of {s ds r : Str} (h : spanDigits s = (ds, r)) {t : Str} (ht : r ≠ [] ∨ Stop t) :
    spanDigits (s ++ t) = (ds, r ++ t) := by
  induction s generalizing ds with
  | nil =>
    cases h
    have ht : Stop t := ht.resolve_left (by simp)
    cases t with
    | nil => rfl
    | cons c t =>
      have := (ht c t rfl).1
      simp [spanDigits, this]
  | cons c s ih =>
    simp only [List.cons_append]
    unfold spanDigits at h ⊢
    by_cases hc : c.isDigit = true
    · rw [if_pos hc] at h ⊢
      cases h
      rw [ih (ds := (spanDigits s).1) rfl]
    · rw [if_neg hc] at h ⊢
      cases h
      rfl

theorem needDigits_append {s r : Str} (h : needDigits s = some r) {t : Str} (ht : r ≠ [] ∨ Stop t) :
    needDigits (s ++ t) = some (r ++ t) := by
  unfold needDigits at h ⊢
  cases hs : spanDigits s with
  | mk ds r' =>
    rw [hs] at h
    cases ds with
    | nil => cases h
    | cons d ds =>
      cases h
      rw [spanDigits_append_of hs ht]

theorem readFraction_append {s r : Str} {b : Bool} (h : readFraction s = some (b, r)) {t : Str} (ht : r ≠ [] ∨ Stop t) :
    readFraction (s ++ t) = some (b, r ++ t) := by
  unfold readFraction at h
  split at h
  · next cs =>
    cases hn : needDigits cs with
    | none => rw [hn] at h; cases h
    | some r' =>
      rw [hn] at h
      cases h
      unfold readFraction
      simp only [List.cons_append]
      rw [needDigits_append hn ht]
      rfl
  · next hs =>
    cases h
    unfold readFraction
    split
    · next cs hcs =>
      exfalso
      cases s with
      | nil => exact (ht.resolve_left (by simp) _ _ hcs).2.1 rfl
      | cons c r =>
        injection hcs with e1 e2
        exact hs _ (by rw [e1])
    · rfl

theorem readExponent_append {s r : Str} {b : Bool} (h : readExponent s = some (b, r)) {t : Str} (ht : r ≠ [] ∨ Stop t) :
    readExponent (s ++ t) = some (b, r ++ t) := by
  cases s with
  | nil =>
    cases h
    have ht : Stop t := ht.resolve_left (by simp)
    cases t with
    | nil => rfl
    | cons c t =>
      have := ht c t rfl
      simp [readExponent, this]
  | cons c s =>
    simp only [List.cons_append]
    unfold readExponent at h ⊢
    by_cases hc : c = 'e' ∨ c = 'E'
    · simp only at h ⊢
      rw [if_pos hc] at h ⊢
      have step : ∀ u, Option.map (fun r => (true, r)) (needDigits u) = some (b, r) →
          Option.map (fun r => (true, r)) (needDigits (u ++ t)) = some (b, r ++ t) := by
        intro u hu
        cases hn : needDigits u with
        | none => rw [hn] at hu; cases hu
        | some r' =>
          rw [hn] at hu
          cases hu
          rw [needDigits_append hn ht]
          rfl
      split at h
      · exact step _ h
      · exact step _ h
      · next h1 h2 =>
        have h3 := step _ h
        cases s with
        | nil => cases h
        | cons d s =>
          simp only [List.cons_append] at h3 ⊢
          split
          · next e => injection e with e1 e2; exact (h1 _ (by rw [e1])).elim
          · next e => injection e with e1 e2; exact (h2 _ (by rw [e1])).elim
          · exact h3
    · simp only at h ⊢
      rw [if_neg hc] at h ⊢
      cases h
      rfl

theorem needDigits_ne {s r : Str} (h : needDigits s = some r) : s ≠ [] := by
  rintro rfl
  cases h

theorem readNumber_append {s r : Str} {j : Json} (h : readNumber s = some (j, r)) {t : Str} (ht : r ≠ [] ∨ Stop t) :
    readNumber (s ++ t) = some (j, r ++ t) := by
  unfold readNumber at h ⊢
  cases hs : spanDigits s with
  | mk ds r1 =>
    rw [hs] at h
    cases ds with
    | nil => cases h
    | cons d ds =>
      simp only at h
      split at h
      · cases h
      next hz =>
      cases hf : readFraction r1 with
      | none => rw [hf] at h; cases h
      | some a =>
        obtain ⟨f, r2⟩ := a
        rw [hf] at h
        simp only [Option.bind_eq_bind, Option.bind_some] at h
        cases he : readExponent r2 with
        | none => rw [he] at h; cases h
        | some a =>
          obtain ⟨e, r3⟩ := a
          rw [he] at h
          simp only [Option.bind_some, Option.pure_def, Option.some.injEq, Prod.mk.injEq] at h
          obtain ⟨h1, rfl⟩ := h
          have h2 : r2 ≠ [] ∨ Stop t := by
            rcases ht with ht | ht
            · refine .inl ?_
              rintro rfl
              cases he
              exact ht rfl
            · exact .inr ht
          have h3 : r1 ≠ [] ∨ Stop t := by
            rcases h2 with ht | ht
            · refine .inl ?_
              rintro rfl
              cases hf
              exact ht rfl
            · exact .inr ht
          rw [spanDigits_append_of hs h3]
          simp only
          rw [if_neg hz, readFraction_append hf h2]
          simp only [Option.bind_eq_bind, Option.bind_some]
          rw [readExponent_append he ht]
          simp only [Option.bind_some, Option.pure_def, Option.some.injEq, Prod.mk.injEq, and_true]
          exact h1

theorem readNumber_digit {s r : Str} {j : Json} (h : readNumber s = some (j, r)) : ∃ c cs, s = c :: cs ∧ c.isDigit = true := by
  cases s with
  | nil => cases h
  | cons c cs =>
    refine ⟨c, cs, rfl, ?_⟩
    by_cases hc : c.isDigit = true
    · exact hc
    · unfold readNumber spanDigits at h
      simp only at h
      rw [if_neg hc] at h
      cases h

theorem readValue_nil (fuel : Nat) : readValue fuel [] = none := by
  cases fuel with
  | zero => unfold readValue; rfl
  | succ fuel => unfold readValue; rfl
theorem readItems_nil (fuel : Nat) : readItems fuel [] = none := by
  cases fuel with
  | zero => unfold readItems; rfl
  | succ fuel => unfold readItems; rfl
theorem readField_nil (fuel : Nat) : readField fuel [] = none := by
  cases fuel with
  | zero => unfold readField; rfl
  | succ fuel => unfold readField; rfl
theorem readFields_nil (fuel : Nat) : readFields fuel [] = none := by
  cases fuel with
  | zero => unfold readFields; rfl
  | succ fuel => unfold readFields; rfl

/-- More fuel and more text after a value do not change what is read, unless the value is a number and the text continues
it. -/
theorem read_append (fuel : Nat) :
    (∀ s v r t f', readValue fuel s = some (v, r) → fuel ≤ f' → (r ≠ [] ∨ Stop t ∨ s.head? = some '{') →
      readValue f' (s ++ t) = some (v, r ++ t)) ∧
    (∀ s v r t f', readItems fuel s = some (v, r) → fuel ≤ f' → readItems f' (s ++ t) = some (v, r ++ t)) ∧
    (∀ s v r t f', readField fuel s = some (v, r) → fuel ≤ f' → (r ≠ [] ∨ Stop t) →
      readField f' (s ++ t) = some (v, r ++ t)) ∧
    (∀ s v r t f', readFields fuel s = some (v, r) → fuel ≤ f' → readFields f' (s ++ t) = some (v, r ++ t)) := by
  induction fuel with
  | zero =>
    refine ⟨?_, ?_, ?_, ?_⟩ <;> intro s v r t f' h
    · unfold readValue at h; cases h
    · unfold readItems at h; cases h
    · unfold readField at h; cases h
    · unfold readFields at h; cases h
  | succ fuel ih =>
    obtain ⟨ih1, ih2, ih3, ih4⟩ := ih
    refine ⟨?_, ?_, ?_, ?_⟩ <;> intro s v r t f' h hf <;>
      obtain ⟨f', rfl⟩ : ∃ g, f' = g + 1 := ⟨f' - 1, by omega⟩ <;> have hf := Nat.le_of_succ_le_succ hf
    · intro ht
      unfold readValue at h
      simp only at h
      split at h
      · cases h; unfold readValue; rfl
      · cases h; unfold readValue; rfl
      · cases h; unfold readValue; rfl
      · next cs =>
        cases hs : readString cs with
        | none => rw [hs] at h; cases h
        | some a =>
          rw [hs] at h
          cases h
          unfold readValue
          simp only [List.cons_append]
          rw [readString_append cs t _ _ hs]
          rfl
      · next cs =>
        cases hs : readNumber cs with
        | none => rw [hs] at h; cases h
        | some a =>
          rw [hs] at h
          cases h
          unfold readValue
          simp only [List.cons_append]
          rw [readNumber_append hs (ht.imp id (fun ht => ht.resolve_right (by simp)))]
          rfl
      · next cs =>
        split at h
        · next e =>
          cases h
          unfold readValue
          simp only [List.cons_append]
          rw [skipSpace_append (by rw [e]; simp), e]
          rfl
        · next hne =>
          simp only [Option.bind_eq_bind, Option.bind_eq_some_iff, Prod.exists, Option.pure_def, Option.some.injEq,
            Prod.mk.injEq] at h
          obtain ⟨x, r1, h1, xs, r2, h2, rfl, rfl⟩ := h
          have hr1 : skipSpace r1 ≠ [] := by
            intro e
            rw [e, readItems_nil] at h2
            cases h2
          have hcs : skipSpace cs ≠ [] := by
            intro e
            rw [e, readValue_nil] at h1
            cases h1
          have e1 := ih1 _ _ _ t f' h1 hf (.inl (skipSpace_ne hr1))
          have e2 := ih2 _ _ _ t f' h2 hf
          unfold readValue
          simp only [List.cons_append]
          rw [skipSpace_append hcs]
          cases hs : skipSpace cs with
          | nil => exact absurd hs hcs
          | cons c cs' =>
            rw [hs] at e1 hne
            simp only [List.cons_append] at e1 ⊢
            split
            · next e => injection e with e3 e4; exact (hne _ (by rw [e3])).elim
            · rw [e1]
              simp only [Option.bind_eq_bind, Option.bind_some]
              rw [skipSpace_append hr1, e2]
              rfl
      · next cs =>
        split at h
        · next e =>
          cases h
          unfold readValue
          simp only [List.cons_append]
          rw [skipSpace_append (by rw [e]; simp), e]
          rfl
        · next hne =>
          simp only [Option.bind_eq_bind, Option.bind_eq_some_iff, Prod.exists, Option.pure_def, Option.some.injEq,
            Prod.mk.injEq] at h
          obtain ⟨k, x, r1, h1, xs, r2, h2, rfl, rfl⟩ := h
          have hr1 : skipSpace r1 ≠ [] := by
            intro e
            rw [e, readFields_nil] at h2
            cases h2
          have hcs : skipSpace cs ≠ [] := by
            intro e
            rw [e, readField_nil] at h1
            cases h1
          have e1 := ih3 _ _ _ t f' h1 hf (.inl (skipSpace_ne hr1))
          have e2 := ih4 _ _ _ t f' h2 hf
          unfold readValue
          simp only [List.cons_append]
          rw [skipSpace_append hcs]
          cases hs : skipSpace cs with
          | nil => exact absurd hs hcs
          | cons c cs' =>
            rw [hs] at e1 hne
            simp only [List.cons_append] at e1 ⊢
            split
            · next e => injection e with e3 e4; exact (hne _ (by rw [e3])).elim
            · rw [e1]
              simp only [Option.bind_eq_bind, Option.bind_some]
              rw [skipSpace_append hr1, e2]
              rfl
      · next cs =>
        obtain ⟨c, cs, rfl, hc⟩ := readNumber_digit h
        rw [List.cons_append, readValue_number _ _ _ hc]
        refine readNumber_append h (ht.imp id (fun ht => ht.resolve_right ?_))
        intro e
        simp only [List.head?_cons, Option.some.injEq] at e
        subst e
        revert hc; decide
    · unfold readItems at h
      simp only at h
      split at h
      · cases h
        unfold readItems
        rfl
      · next cs =>
        simp only [Option.bind_eq_bind, Option.bind_eq_some_iff, Prod.exists, Option.pure_def, Option.some.injEq,
          Prod.mk.injEq] at h
        obtain ⟨x, r1, h1, xs, r2, h2, rfl, rfl⟩ := h
        have hr1 : skipSpace r1 ≠ [] := by
          intro e
          rw [e, readItems_nil] at h2
          cases h2
        have hcs : skipSpace cs ≠ [] := by
          intro e
          rw [e, readValue_nil] at h1
          cases h1
        unfold readItems
        simp only [List.cons_append]
        rw [skipSpace_append hcs, ih1 _ _ _ t f' h1 hf (.inl (skipSpace_ne hr1))]
        simp only [Option.bind_eq_bind, Option.bind_some]
        rw [skipSpace_append hr1, ih2 _ _ _ t f' h2 hf]
        rfl
      · cases h
    · intro ht
      unfold readField at h
      simp only at h
      split at h
      · next cs =>
        simp only [Option.bind_eq_bind, Option.bind_eq_some_iff, Prod.exists] at h
        obtain ⟨k, r1, h1, h⟩ := h
        split at h
        · next r2 hr =>
          simp only [Option.bind_eq_some_iff, Prod.exists, Option.pure_def, Option.some.injEq, Prod.mk.injEq] at h
          obtain ⟨x, r3, h2, rfl, rfl⟩ := h
          have hr2 : skipSpace r2 ≠ [] := by
            intro e
            rw [e, readValue_nil] at h2
            cases h2
          unfold readField
          simp only [List.cons_append]
          rw [readString_append cs t _ _ h1]
          simp only [Option.bind_eq_bind, Option.bind_some]
          rw [skipSpace_append (by rw [hr]; simp), hr]
          simp only [List.cons_append]
          rw [skipSpace_append hr2, ih1 _ _ _ t f' h2 hf (ht.imp id .inl)]
          rfl
        · cases h
      · cases h
    · unfold readFields at h
      simp only at h
      split at h
      · cases h
        unfold readFields
        rfl
      · next cs =>
        simp only [Option.bind_eq_bind, Option.bind_eq_some_iff, Prod.exists, Option.pure_def, Option.some.injEq,
          Prod.mk.injEq] at h
        obtain ⟨k, x, r1, h1, xs, r2, h2, rfl, rfl⟩ := h
        have hr1 : skipSpace r1 ≠ [] := by
          intro e
          rw [e, readFields_nil] at h2
          cases h2
        have hcs : skipSpace cs ≠ [] := by
          intro e
          rw [e, readField_nil] at h1
          cases h1
        unfold readFields
        simp only [List.cons_append]
        rw [skipSpace_append hcs, ih3 _ _ _ t f' h1 hf (.inl (skipSpace_ne hr1))]
        simp only [Option.bind_eq_bind, Option.bind_some]
        rw [skipSpace_append hr1, ih4 _ _ _ t f' h2 hf]
        rfl
      · cases h

theorem skipSpace_length (s : Str) : (skipSpace s).length ≤ s.length := by
  induction s with
  | nil => exact Nat.le_refl _
  | cons c s ih =>
    unfold skipSpace
    split
    · simp only [List.length_cons]; omega
    · exact Nat.le_refl _

theorem consChar_length {c : Option Char} {a : Option (Str × Str)} {x r : Str} {n : Nat} (h : consChar c a = some (x, r))
    (ha : ∀ x r, a = some (x, r) → r.length < n) : r.length < n := by
  cases c with
  | none => cases h
  | some c =>
    cases a with
    | none => cases h
    | some a =>
      have := ha a.1 a.2 rfl
      cases h
      exact this

theorem readString_length (s : Str) : ∀ x r, readString s = some (x, r) → r.length < s.length := by
  fun_induction readString s with
  | case1 => exact fun x r h => by cases h
  | case2 => exact fun x r h => by cases h
  | case3 => exact fun x r h => by cases h
  | case4 a b c d n hn h1 e f g i cs m hm h2 ih =>
    intro x r h
    have := consChar_length h ih
    simp only [List.length_cons]
    omega
  | case5 => exact fun x r h => by cases h
  | case6 => exact fun x r h => by cases h
  | case7 a b c d cs n hn h1 ih =>
    intro x r h
    have := consChar_length h ih
    simp only [List.length_cons]
    omega
  | case8 c cs hc ih =>
    intro x r h
    have := consChar_length h ih
    simp only [List.length_cons]
    omega
  | case9 cs => exact fun x r h => by cases h; simp
  | case10 => exact fun x r h => by cases h
  | case11 c cs h1 h2 h3 h4 ih =>
    intro x r h
    have := consChar_length h ih
    simp only [List.length_cons]
    omega

theorem spanDigits_length {s ds r : Str} (h : spanDigits s = (ds, r)) : r.length + ds.length = s.length := by
  induction s generalizing ds with
  | nil => cases h; rfl
  | cons c s ih =>
    unfold spanDigits at h
    split at h
    · cases h
      have := ih (ds := (spanDigits s).1) rfl
      simp only [List.length_cons]
      omega
    · cases h
      rfl

theorem needDigits_length {s r : Str} (h : needDigits s = some r) : r.length < s.length := by
  unfold needDigits at h
  cases hs : spanDigits s with
  | mk ds r' =>
    rw [hs] at h
    have := spanDigits_length hs
    cases ds with
    | nil => cases h
    | cons d ds =>
      cases h
      simp only [List.length_cons] at this
      omega

theorem needDigits_map_length {s r : Str} {b : Bool} (h : (needDigits s).map (fun r => (true, r)) = some (b, r)) :
    r.length < s.length := by
  cases hn : needDigits s with
  | none => rw [hn] at h; cases h
  | some r' =>
    rw [hn] at h
    cases h
    exact needDigits_length hn

theorem readFraction_length {s r : Str} {b : Bool} (h : readFraction s = some (b, r)) : r.length ≤ s.length := by
  unfold readFraction at h
  split at h
  · have := needDigits_map_length h
    simp only [List.length_cons]
    omega
  · cases h
    exact Nat.le_refl _

theorem readExponent_length {s r : Str} {b : Bool} (h : readExponent s = some (b, r)) : r.length ≤ s.length := by
  cases s with
  | nil => cases h; exact Nat.le_refl _
  | cons c s =>
    unfold readExponent at h
    simp only at h
    split at h
    · split at h <;> have := needDigits_map_length h <;> simp only [List.length_cons] at * <;> omega
    · cases h
      exact Nat.le_refl _

theorem readNumber_length {s r : Str} {j : Json} (h : readNumber s = some (j, r)) : r.length < s.length := by
  unfold readNumber at h
  cases hs : spanDigits s with
  | mk ds r1 =>
    rw [hs] at h
    have l1 := spanDigits_length hs
    cases ds with
    | nil => cases h
    | cons d ds =>
      simp only at h
      split at h
      · cases h
      cases hf : readFraction r1 with
      | none => rw [hf] at h; cases h
      | some a =>
        obtain ⟨f, r2⟩ := a
        rw [hf] at h
        simp only [Option.bind_eq_bind, Option.bind_some] at h
        cases he : readExponent r2 with
        | none => rw [he] at h; cases h
        | some a =>
          obtain ⟨e, r3⟩ := a
          rw [he] at h
          simp only [Option.bind_some, Option.pure_def, Option.some.injEq, Prod.mk.injEq] at h
          obtain ⟨h1, rfl⟩ := h
          have l2 := readFraction_length hf
          have l3 := readExponent_length he
          simp only [List.length_cons] at l1
          omega

/-- Whatever is read with some amount of fuel is read with an amount equal to the length of the text. -/
theorem read_enough (fuel : Nat) :
    (∀ s v r, readValue fuel s = some (v, r) → r.length < s.length ∧ ∀ g, s.length ≤ g → readValue g s = some (v, r)) ∧
    (∀ s v r, readItems fuel s = some (v, r) → r.length < s.length ∧ ∀ g, s.length ≤ g → readItems g s = some (v, r)) ∧
    (∀ s v r, readField fuel s = some (v, r) → r.length < s.length ∧ ∀ g, s.length ≤ g → readField g s = some (v, r)) ∧
    (∀ s v r, readFields fuel s = some (v, r) → r.length < s.length ∧ ∀ g, s.length ≤ g → readFields g s = some (v, r)) := by
  induction fuel with
  | zero =>
    refine ⟨?_, ?_, ?_, ?_⟩ <;> intro s v r h
    · unfold readValue at h; cases h
    · unfold readItems at h; cases h
    · unfold readField at h; cases h
    · unfold readFields at h; cases h
  | succ fuel ih =>
    obtain ⟨ih1, ih2, ih3, ih4⟩ := ih
    refine ⟨?_, ?_, ?_, ?_⟩ <;> intro s v r h
    · have step : r.length < s.length → (∀ g, s.length ≤ g + 1 → readValue (g + 1) s = some (v, r)) →
          r.length < s.length ∧ ∀ g, s.length ≤ g → readValue g s = some (v, r) := by
        intro h1 h2
        refine ⟨h1, fun g hg => ?_⟩
        obtain ⟨g, rfl⟩ : ∃ k, g = k + 1 := ⟨g - 1, by omega⟩
        exact h2 g hg
      unfold readValue at h
      simp only at h
      split at h
      · cases h; exact step (by simp only [List.length_cons]; omega) (fun g _ => by unfold readValue; rfl)
      · cases h; exact step (by simp only [List.length_cons]; omega) (fun g _ => by unfold readValue; rfl)
      · cases h; exact step (by simp only [List.length_cons]; omega) (fun g _ => by unfold readValue; rfl)
      · next cs =>
        cases hs : readString cs with
        | none => rw [hs] at h; cases h
        | some a =>
          have l := readString_length cs _ _ hs
          rw [hs] at h
          cases h
          refine step (by simp only [List.length_cons]; omega) (fun g _ => ?_)
          unfold readValue
          simp only
          rw [hs]
          rfl
      · next cs =>
        cases hs : readNumber cs with
        | none => rw [hs] at h; cases h
        | some a =>
          have l := readNumber_length hs
          rw [hs] at h
          cases h
          refine step (by simp only [List.length_cons]; omega) (fun g _ => ?_)
          unfold readValue
          simp only
          rw [hs]
          rfl
      · next cs =>
        split at h
        · next e =>
          cases h
          have := skipSpace_length cs
          rw [e] at this
          simp only [List.length_cons] at this ⊢
          refine ⟨by omega, fun g hg => ?_⟩
          obtain ⟨g, rfl⟩ : ∃ k, g = k + 1 := ⟨g - 1, by omega⟩
          unfold readValue
          simp only
          rw [e]
          rfl
        · next hne =>
          simp only [Option.bind_eq_bind, Option.bind_eq_some_iff, Prod.exists, Option.pure_def, Option.some.injEq,
            Prod.mk.injEq] at h
          obtain ⟨x, r1, h1, xs, r2, h2, rfl, rfl⟩ := h
          obtain ⟨l1, e1⟩ := ih1 _ _ _ h1
          obtain ⟨l2, e2⟩ := ih2 _ _ _ h2
          have := skipSpace_length cs
          have := skipSpace_length r1
          simp only [List.length_cons]
          refine ⟨by omega, fun g hg => ?_⟩
          obtain ⟨g, rfl⟩ : ∃ k, g = k + 1 := ⟨g - 1, by omega⟩
          unfold readValue
          simp only
          rw [e1 g (by omega)]
          simp only [Option.bind_eq_bind, Option.bind_some]
          rw [e2 g (by omega)]
          rfl
      · next cs =>
        split at h
        · next e =>
          cases h
          have := skipSpace_length cs
          rw [e] at this
          simp only [List.length_cons] at this ⊢
          refine ⟨by omega, fun g hg => ?_⟩
          obtain ⟨g, rfl⟩ : ∃ k, g = k + 1 := ⟨g - 1, by omega⟩
          unfold readValue
          simp only
          rw [e]
          rfl
        · next hne =>
          simp only [Option.bind_eq_bind, Option.bind_eq_some_iff, Prod.exists, Option.pure_def, Option.some.injEq,
            Prod.mk.injEq] at h
          obtain ⟨k, x, r1, h1, xs, r2, h2, rfl, rfl⟩ := h
          obtain ⟨l1, e1⟩ := ih3 _ _ _ h1
          obtain ⟨l2, e2⟩ := ih4 _ _ _ h2
          have := skipSpace_length cs
          have := skipSpace_length r1
          simp only [List.length_cons]
          refine ⟨by omega, fun g hg => ?_⟩
          obtain ⟨g, rfl⟩ : ∃ k, g = k + 1 := ⟨g - 1, by omega⟩
          unfold readValue
          simp only
          rw [e1 g (by omega)]
          simp only [Option.bind_eq_bind, Option.bind_some]
          rw [e2 g (by omega)]
          rfl
      · next cs =>
        obtain ⟨c, cs, rfl, hc⟩ := readNumber_digit h
        refine step (readNumber_length h) (fun g _ => ?_)
        rw [readValue_number _ _ _ hc]
        exact h
    · unfold readItems at h
      simp only at h
      split at h
      · cases h
        refine ⟨by simp, fun g hg => ?_⟩
        simp only [List.length_cons] at hg
        obtain ⟨g, rfl⟩ : ∃ k, g = k + 1 := ⟨g - 1, by omega⟩
        unfold readItems
        rfl
      · next cs =>
        simp only [Option.bind_eq_bind, Option.bind_eq_some_iff, Prod.exists, Option.pure_def, Option.some.injEq,
          Prod.mk.injEq] at h
        obtain ⟨x, r1, h1, xs, r2, h2, rfl, rfl⟩ := h
        obtain ⟨l1, e1⟩ := ih1 _ _ _ h1
        obtain ⟨l2, e2⟩ := ih2 _ _ _ h2
        have := skipSpace_length cs
        have := skipSpace_length r1
        simp only [List.length_cons]
        refine ⟨by omega, fun g hg => ?_⟩
        obtain ⟨g, rfl⟩ : ∃ k, g = k + 1 := ⟨g - 1, by omega⟩
        unfold readItems
        simp only
        rw [e1 g (by omega)]
        simp only [Option.bind_eq_bind, Option.bind_some]
        rw [e2 g (by omega)]
        rfl
      · cases h
    · unfold readField at h
      simp only at h
      split at h
      · next cs =>
        simp only [Option.bind_eq_bind, Option.bind_eq_some_iff, Prod.exists] at h
        obtain ⟨k, r1, h1, h⟩ := h
        split at h
        · next r2 hr =>
          simp only [Option.bind_eq_some_iff, Prod.exists, Option.pure_def, Option.some.injEq, Prod.mk.injEq] at h
          obtain ⟨x, r3, h2, rfl, rfl⟩ := h
          have l1 := readString_length cs _ _ h1
          obtain ⟨l2, e2⟩ := ih1 _ _ _ h2
          have l3 := skipSpace_length r1
          have l4 := skipSpace_length r2
          rw [hr, List.length_cons] at l3
          simp only [List.length_cons]
          refine ⟨by omega, fun g hg => ?_⟩
          obtain ⟨g, rfl⟩ : ∃ k, g = k + 1 := ⟨g - 1, by omega⟩
          unfold readField
          simp only
          rw [h1]
          simp only [Option.bind_eq_bind, Option.bind_some]
          rw [hr]
          simp only
          rw [e2 g (by omega)]
          rfl
        · cases h
      · cases h
    · unfold readFields at h
      simp only at h
      split at h
      · cases h
        refine ⟨by simp, fun g hg => ?_⟩
        simp only [List.length_cons] at hg
        obtain ⟨g, rfl⟩ : ∃ k, g = k + 1 := ⟨g - 1, by omega⟩
        unfold readFields
        rfl
      · next cs =>
        simp only [Option.bind_eq_bind, Option.bind_eq_some_iff, Prod.exists, Option.pure_def, Option.some.injEq,
          Prod.mk.injEq] at h
        obtain ⟨k, x, r1, h1, xs, r2, h2, rfl, rfl⟩ := h
        obtain ⟨l1, e1⟩ := ih3 _ _ _ h1
        obtain ⟨l2, e2⟩ := ih4 _ _ _ h2
        have := skipSpace_length cs
        have := skipSpace_length r1
        simp only [List.length_cons]
        refine ⟨by omega, fun g hg => ?_⟩
        obtain ⟨g, rfl⟩ : ∃ k, g = k + 1 := ⟨g - 1, by omega⟩
        unfold readFields
        simp only
        rw [e1 g (by omega)]
        simp only [Option.bind_eq_bind, Option.bind_some]
        rw [e2 g (by omega)]
        rfl
      · cases h

/-- The amount of fuel does not matter. -/
theorem readValue_fuel (f g : Nat) (s : Str) (hf : s.length ≤ f) (hg : s.length ≤ g) : readValue f s = readValue g s := by
  cases h1 : readValue f s with
  | some a => exact (((read_enough f).1 s a.1 a.2 h1).2 g hg).symm
  | none =>
    cases h2 : readValue g s with
    | none => rfl
    | some a =>
      have := ((read_enough g).1 s a.1 a.2 h2).2 f hf
      rw [h1] at this
      cases this

/-- No proper initial part of a written object is a document. -/
theorem readDocument_truncated {fs : List (Str × Json)} (h : Storable (.obj fs)) {s t : Str}
    (hst : s ++ t = text 0 (.obj fs)) (ht : t ≠ []) : readDocument s = none := by
  cases hd : readDocument s with
  | none => rfl
  | some j =>
    exfalso
    unfold readDocument at hd
    simp only [Option.bind_eq_bind, Option.bind_eq_some_iff, Prod.exists] at hd
    obtain ⟨v, r, h1, -⟩ := hd
    obtain ⟨u, hu⟩ : ∃ u, text 0 (.obj fs) = '{' :: u := by
      cases fs with
      | nil => exact ⟨_, rfl⟩
      | cons f fs => exact ⟨_, rfl⟩
    cases s with
    | nil => rw [show skipSpace [] = [] from rfl, readValue_nil] at h1; cases h1
    | cons c s =>
      have hc : c = '{' := by
        rw [hu] at hst
        injection hst
      subst hc
      rw [show skipSpace ('{' :: s) = '{' :: s from rfl] at h1
      have e1 := (read_append _).1 _ _ _ t (('{' :: s).length + 1 + t.length) h1 (by omega) (.inr (.inr rfl))
      have hr : Stop [] := by intro c cs e; cases e
      have e2 := readValue_text 0 _ h [] hr (('{' :: s).length + 1 + t.length) (by
        rw [← hst]
        simp only [List.append_nil, List.length_append]
        omega)
      rw [List.append_nil, ← hst, e1] at e2
      simp only [Option.some.injEq, Prod.mk.injEq, List.append_eq_nil_iff] at e2
      exact ht e2.2.2

end PwDiff.Json

namespace PwDiff

/-- An initial part of encoded text that is itself encoded text is the encoding of an initial part. -/
theorem Str.bytes_prefix {s u : Str} {t : List UInt8} (h : s.bytes ++ t = u.bytes) : ∃ v, u = s ++ v := by
  induction s generalizing u with
  | nil => exact ⟨u, rfl⟩
  | cons c s ih =>
    cases u with
    | nil =>
      exfalso
      have := congrArg List.length h
      have h2 := String.length_utf8EncodeChar c
      have h3 := Char.utf8Size_pos c
      simp [Str.bytes, List.flatMap_cons] at this
      omega
    | cons d u =>
      have hh : String.utf8EncodeChar c ++ (Str.bytes s ++ t) = String.utf8EncodeChar d ++ Str.bytes u := by
        simpa [Str.bytes, List.flatMap_cons] using h
      have h1 := ByteArray.utf8DecodeChar?_utf8EncodeChar_append (b := (Str.bytes s ++ t).toByteArray) (c := c)
      have h2 := ByteArray.utf8DecodeChar?_utf8EncodeChar_append (b := (Str.bytes u).toByteArray) (c := d)
      rw [← List.toByteArray_append] at h1 h2
      rw [hh, h2] at h1
      cases h1
      obtain ⟨v, rfl⟩ := ih (List.append_cancel_left hh)
      exact ⟨v, rfl⟩

theorem Json.ofDiff_obj (d : Diff) : ∃ k x, Json.ofDiff d = .obj [(k, x)] := by
  cases d <;> exact ⟨_, _, rfl⟩

/-- No proper initial part of a written diff is read as a diff. -/
theorem fromReader_truncated (d : Diff) (hd : d.InRange) (hp : ∀ path ∈ d.paths, IsUtf8 path) {bs t : List UInt8}
    (h : bs ++ t = (Json.text 0 (Json.ofDiff d)).bytes) (ht : t ≠ []) : Diff.fromReader ⟨bs, false⟩ = .ioErr := by
  unfold Diff.fromReader
  rw [if_neg (by simp)]
  simp only
  cases hs : decodeUtf8 bs with
  | none => rfl
  | some s =>
    simp only
    obtain rfl := decodeUtf8_eq_some.1 hs
    obtain ⟨v, hv⟩ := Str.bytes_prefix h
    have hs := Json.storable_ofDiff d hd hp
    obtain ⟨k, x, e⟩ := Json.ofDiff_obj d
    rw [e] at hs hv h
    rw [Json.readDocument_truncated hs hv.symm]
    rintro rfl
    rw [hv, List.append_nil] at h
    have := congrArg List.length h
    simp only [List.length_append] at this
    exact ht (List.length_eq_zero_iff.1 (by omega))

/-- A written diff ends with a newline and a closing brace. -/
theorem toWriter_last {d : Diff} {out : List UInt8} (h : d.toWriter.run = (.ok (), out)) : ∃ init, out = init ++ [10, 125] := by
  obtain ⟨k, x, e⟩ := Json.ofDiff_obj d
  unfold Diff.toWriter at h
  rw [e] at h
  unfold Json.write at h
  obtain ⟨o, r, h1, h2⟩ := Json.ends_write 1 x
  rw [Json.put_eq, Json.put_eq, Json.put_eq, h1] at h
  have h3 : Json.writeFields 0 [] = WM.emit [10, 125] (.ok ()) := by
    unfold Json.writeFields
    rw [Json.put_eq]
    rfl
  rw [h3] at h
  have : ∀ (a b : List UInt8) (r : Outcome Unit), (WM.emit a (.ok ()) >>= fun _ => WM.emit b r) = WM.emit (a ++ b) r :=
    fun a b r => WM.emit_bind_ok _ _ _ rfl
  rcases h2 with ⟨-, rfl⟩ | ⟨-, rfl⟩
  · simp only [this] at h
    rw [WM.run_emit] at h
    obtain rfl := (Prod.mk.inj h).2
    exact ⟨Str.bytes ('{' :: Json.newline (0 + 1)) ++ ((Json.quote k).bytes ++ (Str.bytes [':', ' '] ++ o)),
      by simp only [List.append_assoc]⟩
  · rw [WM.emit_bind_ioErr] at h
    simp only [this] at h
    rw [WM.run_emit] at h
    cases h

end PwDiff
