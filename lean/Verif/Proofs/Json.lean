import Verif.Proofs.Text
import Verif.Model.Diff

/-! # What is written as JSON is read back -/

namespace PwDiff.Json

mutual
/-- What `write` writes if it succeeds. -/
def text (level : Nat) : Json → Str
  | .null => ['n', 'u', 'l', 'l']
  | .bool true => ['t', 'r', 'u', 'e']
  | .bool false => ['f', 'a', 'l', 's', 'e']
  | .nat n => Nat.toDigits 10 n
  | .number => []
  | .str s => quote s
  | .arr [] => ['[', ']']
  | .arr (x :: xs) => '[' :: (newline (level + 1) ++ (text (level + 1) x ++ textItems level xs))
  | .obj [] => ['{', '}']
  | .obj ((k, x) :: xs) =>
    '{' :: (newline (level + 1) ++ (quote k ++ (':' :: ' ' :: (text (level + 1) x ++ textFields level xs))))
  | .invalid => []

def textItems (level : Nat) : List Json → Str
  | [] => newline level ++ [']']
  | x :: xs => ',' :: (newline (level + 1) ++ (text (level + 1) x ++ textItems level xs))

def textFields (level : Nat) : List (Str × Json) → Str
  | [] => newline level ++ ['}']
  | (k, x) :: xs =>
    ',' :: (newline (level + 1) ++ (quote k ++ (':' :: ' ' :: (text (level + 1) x ++ textFields level xs))))
end

mutual
/-- A value that can be written. -/
def Storable : Json → Prop
  | .null => True
  | .bool _ => True
  | .nat n => n < wordSize
  | .number => False
  | .str _ => True
  | .arr xs => StorableItems xs
  | .obj xs => StorableFields xs
  | .invalid => False

def StorableItems : List Json → Prop
  | [] => True
  | x :: xs => Storable x ∧ StorableItems xs

def StorableFields : List (Str × Json) → Prop
  | [] => True
  | (_, x) :: xs => Storable x ∧ StorableFields xs
end

theorem put_eq (s : Str) : put s = WM.emit s.bytes (.ok ()) := WM.writeAll_eq_emit _

theorem emit_then {α : Type} (s t : Str) (m : WM α) (o : Outcome α) (h : m = WM.emit t.bytes o) :
    (WM.emit s.bytes (.ok ()) >>= fun _ => m) = WM.emit (s ++ t).bytes o := by
  rw [Str.bytes_append]
  exact WM.emit_bind_ok _ _ _ h

mutual
theorem write_eq (level : Nat) (v : Json) (h : Storable v) : write level v = WM.emit (text level v).bytes (.ok ()) := by
  match v with
  | .null => exact put_eq _
  | .bool true => exact put_eq _
  | .bool false => exact put_eq _
  | .nat n => exact put_eq _
  | .str s => exact put_eq _
  | .arr [] => exact put_eq _
  | .arr (x :: xs) =>
    simp only [Storable, StorableItems] at h
    unfold write text
    rw [put_eq, ← List.cons_append]
    refine emit_then _ _ _ _ ?_
    rw [write_eq (level + 1) x h.1]
    exact emit_then _ _ _ _ (writeItems_eq level xs h.2)
  | .obj [] => exact put_eq _
  | .obj ((k, x) :: xs) =>
    simp only [Storable, StorableFields] at h
    unfold write text
    rw [put_eq, ← List.cons_append]
    refine emit_then _ _ _ _ ?_
    rw [put_eq]
    refine emit_then _ _ _ _ ?_
    rw [put_eq]
    refine emit_then [':', ' '] _ _ _ ?_
    rw [write_eq (level + 1) x h.1]
    exact emit_then _ _ _ _ (writeFields_eq level xs h.2)

theorem writeItems_eq (level : Nat) (xs : List Json) (h : StorableItems xs) :
    writeItems level xs = WM.emit (textItems level xs).bytes (.ok ()) := by
  match xs with
  | [] => exact put_eq _
  | x :: xs =>
    simp only [StorableItems] at h
    unfold writeItems textItems
    rw [put_eq, ← List.cons_append]
    refine emit_then _ _ _ _ ?_
    rw [write_eq (level + 1) x h.1]
    exact emit_then _ _ _ _ (writeItems_eq level xs h.2)

theorem writeFields_eq (level : Nat) (xs : List (Str × Json)) (h : StorableFields xs) :
    writeFields level xs = WM.emit (textFields level xs).bytes (.ok ()) := by
  match xs with
  | [] => exact put_eq _
  | (k, x) :: xs =>
    simp only [StorableFields] at h
    unfold writeFields textFields
    rw [put_eq, ← List.cons_append]
    refine emit_then _ _ _ _ ?_
    rw [put_eq]
    refine emit_then _ _ _ _ ?_
    rw [put_eq]
    refine emit_then [':', ' '] _ _ _ ?_
    rw [write_eq (level + 1) x h.1]
    exact emit_then _ _ _ _ (writeFields_eq level xs h.2)
end

/-! ## Strings -/

theorem hexValue_hexDigit (n : Nat) (h : n < 16) : hexValue (hexDigit n) = some n := by
  have : ∀ n < 16, hexValue (hexDigit n) = some n := by decide
  exact this n h

theorem toNat_inj {c d : Char} (h : c.toNat = d.toNat) : c = d := Char.toNat_inj.1 h

theorem scalar_toNat (c : Char) : scalar c.toNat = some c := by
  unfold scalar
  have hv : c.toNat.isValidChar := c.valid
  rw [dif_pos hv]
  rfl

theorem hex4_small (n : Nat) (h : n < 256) : hex4 '0' '0' (hexDigit (n / 16)) (hexDigit (n % 16)) = some n := by
  unfold hex4
  rw [hexValue_hexDigit _ (by omega), hexValue_hexDigit _ (by omega)]
  show some _ = _
  congr 1
  simp [show '0'.toNat = 48 from rfl]
  omega

theorem readString_escape (c : Char) (rest : Str) : readString (escape c ++ rest) = consChar (some c) (readString rest) := by
  unfold escape
  split
  · rename_i h; subst h; rfl
  split
  · rename_i h; subst h; rfl
  split
  · rename_i h
    have : c = Char.ofNat 8 := toNat_inj (by rw [h]; rfl)
    subst this; rfl
  split
  · rename_i h
    have : c = '\t' := toNat_inj (by rw [h]; rfl)
    subst this; rfl
  split
  · rename_i h
    have : c = '\n' := toNat_inj (by rw [h]; rfl)
    subst this; rfl
  split
  · rename_i h
    have : c = Char.ofNat 12 := toNat_inj (by rw [h]; rfl)
    subst this; rfl
  split
  · rename_i h
    have : c = '\r' := toNat_inj (by rw [h]; rfl)
    subst this; rfl
  split
  · rename_i h
    simp only [List.cons_append, List.nil_append]
    conv => lhs; unfold readString
    simp only [hex4_small c.toNat (by omega)]
    rw [if_neg (by omega), scalar_toNat]
  · rename_i h1 h2 _ _ _ _ _ h3
    simp only [List.cons_append, List.nil_append]
    rw [readString.eq_def]
    split
    · simp_all
    · simp_all
    · simp_all
    · rename_i c' cs' _ _ heq
      injection heq with e1 e2
      subst e1 e2
      rw [if_neg h1, if_neg h3]

theorem readString_quoted (s rest : Str) : readString (s.flatMap escape ++ '"' :: rest) = some (s, rest) := by
  induction s with
  | nil => rfl
  | cons c s ih =>
    rw [List.flatMap_cons, List.append_assoc, readString_escape, ih]
    rfl

/-! ## Numbers -/

/-- What may follow a value. -/
def Stop (rest : Str) : Prop := ∀ c cs, rest = c :: cs → c.isDigit = false ∧ c ≠ '.' ∧ c ≠ 'e' ∧ c ≠ 'E'

theorem spanDigits_append (ds rest : Str) (h : ∀ c ∈ ds, c.isDigit = true) (hr : Stop rest) :
    spanDigits (ds ++ rest) = (ds, rest) := by
  induction ds with
  | nil =>
    cases rest with
    | nil => rfl
    | cons c cs => simp [spanDigits, (hr c cs rfl).1]
  | cons d ds ih =>
    simp only [List.cons_append, spanDigits, h d (by simp), if_true]
    rw [ih (fun c hc => h c (by simp [hc]))]

theorem no_leading_zero (n : Nat) : ∀ d ds, Nat.toDigits 10 n = d :: ds → ds ≠ [] → d ≠ '0' := by
  induction n using Nat.strongRecOn with
  | _ n ih =>
    intro d ds he hds hd
    by_cases h : n < 10
    · rw [Nat.toDigits_of_lt_base h] at he
      injection he with e1 e2
      exact hds e2.symm
    · rw [Nat.toDigits_of_base_le (by omega) (by omega)] at he
      cases hq : Nat.toDigits 10 (n / 10) with
      | nil => exact Nat.toDigits_ne_nil hq
      | cons e es =>
        rw [hq] at he
        injection he with e1 e2
        subst e1
        by_cases hes : es = []
        · subst hes
          have hlt : n / 10 < 10 := by
            have := (Nat.length_toDigits_le_iff (b := 10) (n := n / 10) (k := 1) (by omega) (by omega)).1 (by rw [hq]; simp)
            simpa using this
          rw [Nat.toDigits_of_lt_base hlt] at hq
          injection hq with e3 _
          have : n / 10 = 0 := by
            have key : ∀ m < 10, Nat.digitChar m = '0' → m = 0 := by decide
            exact key _ hlt (e3.trans hd)
          omega
        · exact ih (n / 10) (by omega) e es hq hes hd

theorem readNumber_digits (n : Nat) (hn : n < wordSize) (rest : Str) (hr : Stop rest) :
    readNumber (Nat.toDigits 10 n ++ rest) = some (.nat n, rest) := by
  unfold readNumber
  rw [spanDigits_append _ _ (fun c hc => Nat.isDigit_of_mem_toDigits (by omega) (by omega) hc) hr]
  cases hd : Nat.toDigits 10 n with
  | nil => exact absurd hd Nat.toDigits_ne_nil
  | cons d ds =>
    simp only
    rw [if_neg (by intro ⟨h1, h2⟩; exact no_leading_zero n d ds hd h2 h1)]
    have hf : readFraction rest = some (false, rest) := by
      cases rest with
      | nil => rfl
      | cons c cs =>
        have := (hr c cs rfl).2.1
        unfold readFraction
        split
        · simp_all
        · rfl
    have he : readExponent rest = some (false, rest) := by
      cases rest with
      | nil => rfl
      | cons c cs =>
        have := (hr c cs rfl).2.2
        unfold readExponent
        simp [this.1, this.2]
    rw [hf]
    simp only [Option.bind_eq_bind, Option.bind_some, he]
    rw [← hd, Nat.ofDigitChars_ten_toDigits]
    simp [hn]

/-! ## Values -/

theorem skipSpace_newline (level : Nat) (s : Str) : skipSpace (newline level ++ s) = skipSpace s := by
  have : ∀ n, skipSpace (List.replicate n ' ' ++ s) = skipSpace s := by
    intro n
    induction n with
    | zero => rfl
    | succ n ih => simpa [List.replicate_succ, skipSpace, isSpace] using ih
  unfold newline
  simp only [List.cons_append]
  conv => lhs; unfold skipSpace
  exact this _

/-- The first character of a value. -/
def Starts (s : Str) : Prop := ∃ c cs, s = c :: cs ∧ isSpace c = false ∧ c ≠ ']' ∧ c ≠ '}'

theorem Starts.skip {s : Str} (h : Starts s) (rest : Str) : skipSpace (s ++ rest) = s ++ rest := by
  obtain ⟨c, cs, rfl, hc, -⟩ := h
  simp [skipSpace, hc]

theorem starts_quote (s : Str) : Starts (quote s) := ⟨'"', _, rfl, by decide, by decide, by decide⟩

theorem digit_plain {c : Char} (h : c.isDigit = true) : isSpace c = false ∧ c ≠ ']' ∧ c ≠ '}' := by
  refine ⟨?_, ?_, ?_⟩
  · cases hs : isSpace c with
    | false => rfl
    | true =>
      simp only [isSpace, Bool.or_eq_true, decide_eq_true_eq] at hs
      rcases hs with ((rfl | rfl) | rfl) | rfl <;> revert h <;> decide
  · rintro rfl; revert h; decide
  · rintro rfl; revert h; decide

theorem starts_text (level : Nat) (v : Json) (h : Storable v) : Starts (text level v) := by
  match v with
  | .null => exact ⟨_, _, rfl, by decide, by decide, by decide⟩
  | .bool true => exact ⟨_, _, rfl, by decide, by decide, by decide⟩
  | .bool false => exact ⟨_, _, rfl, by decide, by decide, by decide⟩
  | .nat n =>
    unfold text
    cases hd : Nat.toDigits 10 n with
    | nil => exact absurd hd Nat.toDigits_ne_nil
    | cons c cs =>
      have := digit_plain (Nat.isDigit_of_mem_toDigits (b := 10) (n := n) (c := c) (by omega) (by omega) (by rw [hd]; simp))
      exact ⟨c, cs, rfl, this⟩
  | .str s => exact starts_quote s
  | .arr [] => exact ⟨_, _, rfl, by decide, by decide, by decide⟩
  | .arr (x :: xs) =>
    unfold text
    exact ⟨_, _, rfl, by decide, by decide, by decide⟩
  | .obj [] => exact ⟨_, _, rfl, by decide, by decide, by decide⟩
  | .obj ((k, x) :: xs) =>
    unfold text
    exact ⟨_, _, rfl, by decide, by decide, by decide⟩

theorem stop_cons {c : Char} {cs : Str} (h : (c.isDigit || c = '.' || c = 'e' || c = 'E') = false) : Stop (c :: cs) := by
  intro c' cs' e
  injection e with e1 _
  subst e1
  simp only [Bool.or_eq_false_iff, decide_eq_false_iff_not] at h
  exact ⟨h.1.1.1, h.1.1.2, h.1.2, h.2⟩

theorem stop_items (level : Nat) (xs : List Json) (rest : Str) : Stop (textItems level xs ++ rest) := by
  cases xs <;> (unfold textItems; exact stop_cons (by decide))

theorem stop_fields (level : Nat) (xs : List (Str × Json)) (rest : Str) : Stop (textFields level xs ++ rest) := by
  cases xs with
  | nil => unfold textFields; exact stop_cons (by decide)
  | cons x xs => obtain ⟨k, x⟩ := x; unfold textFields; exact stop_cons (by decide)

theorem quote_append (k rest : Str) : quote k ++ rest = '"' :: (k.flatMap escape ++ '"' :: rest) := by
  simp [quote]

theorem readValue_number (fuel : Nat) (c : Char) (cs : Str) (hc : c.isDigit = true) :
    readValue (fuel + 1) (c :: cs) = readNumber (c :: cs) := by
  unfold readValue
  split <;> first | rfl | (rename_i h; injection h with h1 _; subst h1; exact absurd hc (by decide))

theorem readValue_arr (fuel : Nat) (s : Str) (h : Starts s) (r : Str) :
    readValue (fuel + 1) ('[' :: (s ++ r)) = (do
      let (x, r) ← readValue fuel (s ++ r)
      let (xs, r) ← readItems fuel (skipSpace r)
      return (.arr (x :: xs), r)) := by
  conv => lhs; unfold readValue
  simp only
  rw [h.skip]
  obtain ⟨c, cs, rfl, -, hc, -⟩ := h
  simp only [List.cons_append]
  split
  · rename_i h; injection h with h1 _; exact absurd h1 hc
  · rfl

theorem readField_quote (fuel : Nat) (k r : Str) :
    readField (fuel + 1) (quote k ++ (':' :: ' ' :: r)) = (do
      let (x, r) ← readValue fuel (skipSpace r)
      return ((k, x), r)) := by
  rw [quote_append]
  conv => lhs; unfold readField
  simp only [readString_quoted]
  rfl

theorem readValue_obj (fuel : Nat) (s : Str) (h : Starts s) (r : Str) :
    readValue (fuel + 1) ('{' :: (s ++ r)) = (do
      let (x, r) ← readField fuel (s ++ r)
      let (xs, r) ← readFields fuel (skipSpace r)
      return (.obj (x :: xs), r)) := by
  conv => lhs; unfold readValue
  simp only
  rw [h.skip]
  obtain ⟨c, cs, rfl, -, -, hc⟩ := h
  simp only [List.cons_append]
  split
  · rename_i h; injection h with h1 _; exact absurd h1 hc
  · rfl

/-- A leading newline with indentation inside brackets does not matter. -/
theorem readValue_arr_newline (fuel level : Nat) (s : Str) (h : Starts s) (r : Str) :
    readValue fuel ('[' :: (newline level ++ (s ++ r))) = readValue fuel ('[' :: (s ++ r)) := by
  cases fuel with
  | zero => rfl
  | succ fuel =>
    unfold readValue
    simp only
    rw [skipSpace_newline, h.skip]

theorem readValue_obj_newline (fuel level : Nat) (s : Str) (h : Starts s) (r : Str) :
    readValue fuel ('{' :: (newline level ++ (s ++ r))) = readValue fuel ('{' :: (s ++ r)) := by
  cases fuel with
  | zero => rfl
  | succ fuel =>
    unfold readValue
    simp only
    rw [skipSpace_newline, h.skip]

mutual
theorem readValue_text (level : Nat) (v : Json) (h : Storable v) (rest : Str) (hr : Stop rest) (fuel : Nat)
    (hf : (text level v ++ rest).length ≤ fuel) : readValue fuel (text level v ++ rest) = some (v, rest) := by
  obtain ⟨fuel, rfl⟩ : ∃ f, fuel = f + 1 := by
    obtain ⟨c, cs, hc, -⟩ := starts_text level v h
    rw [hc] at hf
    exact ⟨fuel - 1, by simp at hf; omega⟩
  match v with
  | .null => unfold readValue; rfl
  | .bool true => unfold readValue; rfl
  | .bool false => unfold readValue; rfl
  | .nat n =>
    simp only [Storable] at h
    have := readNumber_digits n h rest hr
    unfold text
    cases hd : Nat.toDigits 10 n with
    | nil => exact absurd hd Nat.toDigits_ne_nil
    | cons c cs =>
      rw [hd] at this
      rw [List.cons_append, readValue_number _ _ _ (Nat.isDigit_of_mem_toDigits (b := 10) (n := n) (by omega) (by omega)
        (by rw [hd]; simp))]
      exact this
  | .str s =>
    unfold text readValue
    rw [quote_append]
    simp only
    rw [readString_quoted]
    rfl
  | .arr [] =>
    simp only [Storable] at h
    unfold text readValue
    rfl
  | .arr (x :: xs) =>
    simp only [Storable, StorableItems] at h
    have hs := starts_text (level + 1) x h.1
    unfold text at hf ⊢
    simp only [List.cons_append, List.append_assoc, List.length_cons, List.length_append] at hf ⊢
    rw [readValue_arr_newline _ _ _ hs, readValue_arr _ _ hs,
      readValue_text (level + 1) x h.1 _ (stop_items level xs rest) fuel (by simp only [List.length_append]; omega)]
    simp only [Option.bind_eq_bind, Option.bind_some]
    rw [readItems_text level xs h.2 rest hr fuel (by simp only [List.length_append]; omega)]
    rfl
  | .obj [] =>
    simp only [Storable] at h
    unfold text readValue
    rfl
  | .obj ((k, x) :: xs) =>
    simp only [Storable, StorableFields] at h
    have hs := starts_text (level + 1) x h.1
    unfold text at hf ⊢
    simp only [List.cons_append, List.append_assoc, List.length_cons, List.length_append] at hf ⊢
    rw [readValue_obj_newline _ _ _ (starts_quote k), readValue_obj _ _ (starts_quote k)]
    obtain ⟨fuel, rfl⟩ : ∃ f, fuel = f + 1 := ⟨fuel - 1, by omega⟩
    rw [readField_quote, hs.skip,
      readValue_text (level + 1) x h.1 _ (stop_fields level xs rest) fuel (by simp only [List.length_append]; omega)]
    simp only [Option.bind_eq_bind, Option.bind_some, Option.pure_def]
    rw [readFields_text level xs h.2 rest hr (fuel + 1) (by simp only [List.length_append]; omega)]
    rfl

theorem readItems_text (level : Nat) (xs : List Json) (h : StorableItems xs) (rest : Str) (hr : Stop rest) (fuel : Nat)
    (hf : (textItems level xs ++ rest).length ≤ fuel) :
    readItems fuel (skipSpace (textItems level xs ++ rest)) = some (xs, rest) := by
  match xs with
  | [] =>
    unfold textItems at hf ⊢
    simp only [List.length_append, List.length_cons] at hf
    obtain ⟨fuel, rfl⟩ : ∃ f, fuel = f + 1 := ⟨fuel - 1, by omega⟩
    rw [List.append_assoc, skipSpace_newline]
    unfold readItems
    rfl
  | x :: xs =>
    simp only [StorableItems] at h
    have hs := starts_text (level + 1) x h.1
    unfold textItems at hf ⊢
    simp only [List.cons_append, List.append_assoc, List.length_cons, List.length_append] at hf ⊢
    obtain ⟨fuel, rfl⟩ : ∃ f, fuel = f + 1 := ⟨fuel - 1, by omega⟩
    rw [show ∀ s, skipSpace (',' :: s) = ',' :: s from fun _ => rfl]
    unfold readItems
    simp only
    rw [skipSpace_newline, hs.skip,
      readValue_text (level + 1) x h.1 _ (stop_items level xs rest) fuel (by simp only [List.length_append]; omega)]
    simp only [Option.bind_eq_bind, Option.bind_some]
    rw [readItems_text level xs h.2 rest hr fuel (by simp only [List.length_append]; omega)]
    rfl

theorem readFields_text (level : Nat) (xs : List (Str × Json)) (h : StorableFields xs) (rest : Str) (hr : Stop rest)
    (fuel : Nat) (hf : (textFields level xs ++ rest).length ≤ fuel) :
    readFields fuel (skipSpace (textFields level xs ++ rest)) = some (xs, rest) := by
  match xs with
  | [] =>
    unfold textFields at hf ⊢
    simp only [List.length_append, List.length_cons] at hf
    obtain ⟨fuel, rfl⟩ : ∃ f, fuel = f + 1 := ⟨fuel - 1, by omega⟩
    rw [List.append_assoc, skipSpace_newline]
    unfold readFields
    rfl
  | (k, x) :: xs =>
    simp only [StorableFields] at h
    have hs := starts_text (level + 1) x h.1
    unfold textFields at hf ⊢
    simp only [List.cons_append, List.append_assoc, List.length_cons, List.length_append] at hf ⊢
    obtain ⟨fuel, rfl⟩ : ∃ f, fuel = f + 2 := ⟨fuel - 2, by omega⟩
    rw [show ∀ s, skipSpace (',' :: s) = ',' :: s from fun _ => rfl]
    unfold readFields
    simp only
    rw [skipSpace_newline, (starts_quote k).skip, readField_quote, hs.skip,
      readValue_text (level + 1) x h.1 _ (stop_fields level xs rest) fuel (by simp only [List.length_append]; omega)]
    simp only [Option.bind_eq_bind, Option.bind_some, Option.pure_def]
    rw [readFields_text level xs h.2 rest hr (fuel + 1) (by simp only [List.length_append]; omega)]
    rfl
end

/-- A document that can be written is read back. -/
theorem readDocument_text (v : Json) (h : Storable v) : readDocument (text 0 v) = some v := by
  have hs := starts_text 0 v h
  have hr : Stop [] := by intro c cs e; cases e
  have := readValue_text 0 v h [] hr ((text 0 v).length + 1) (by simp)
  unfold readDocument
  have hsk := hs.skip []
  rw [List.append_nil] at this hsk
  rw [hsk, this]
  rfl

end PwDiff.Json
