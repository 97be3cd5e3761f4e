import Verif.Proofs.Basic

/-! # Lemmas about reading text -/

namespace PwDiff

@[simp] theorem Str.bytes_nil : Str.bytes [] = [] := rfl
@[simp] theorem Str.bytes_cons (c : Char) (s : Str) : Str.bytes (c :: s) = String.utf8EncodeChar c ++ Str.bytes s := rfl
@[simp] theorem Str.bytes_append (s t : Str) : Str.bytes (s ++ t) = Str.bytes s ++ Str.bytes t := by
  simp [Str.bytes]

theorem toByteArray_eq_mk (bs : List UInt8) : bs.toByteArray = ByteArray.mk bs.toArray := by
  apply ByteArray.ext
  simp

theorem utf8Encode_eq (s : Str) : s.utf8Encode = ByteArray.mk s.bytes.toArray := by
  rw [← toByteArray_eq_mk]; rfl

theorem decodeUtf8_bytes (s : Str) : decodeUtf8 s.bytes = some s := by
  unfold decodeUtf8
  rw [← utf8Encode_eq, List.utf8Decode?_utf8Encode]
  simp

theorem decodeUtf8_eq_some {bs : List UInt8} {s : Str} : decodeUtf8 bs = some s ↔ s.bytes = bs := by
  constructor
  · intro h
    have hs : (ByteArray.mk bs.toArray).utf8Decode?.isSome := by
      unfold decodeUtf8 at h
      cases hd : (ByteArray.mk bs.toArray).utf8Decode? with
      | none => rw [hd] at h; simp at h
      | some a => rfl
    obtain ⟨m, hm⟩ := ByteArray.isSome_utf8Decode?_iff.1 hs
    rw [utf8Encode_eq] at hm
    have hb : bs = Str.bytes m := by
      have := congrArg (fun b => b.data.toList) hm
      simpa using this
    subst hb
    rw [decodeUtf8_bytes] at h
    injection h with h
    rw [h]
  · rintro rfl
    exact decodeUtf8_bytes s

/-- The encoding is injective. -/
theorem Str.bytes_inj {s t : Str} (h : s.bytes = t.bytes) : s = t := by
  have h1 := decodeUtf8_bytes s
  rw [h, decodeUtf8_bytes] at h1
  exact (Option.some.inj h1).symm

theorem newline_bytes : String.utf8EncodeChar '\n' = [10] := by decide

theorem not_newline_bytes {c : Char} (hc : c ≠ '\n') : ∀ b ∈ String.utf8EncodeChar c, b ≠ (10 : UInt8) := by
  have hv : c.val.toNat ≠ 10 := by
    intro h
    apply hc
    apply Char.ext
    apply UInt32.toNat_inj.1
    rw [h]; rfl
  intro b hb hb10
  subst hb10
  have key : ∀ n : Nat, n < 256 → n ≠ 10 → (10 : UInt8) ≠ UInt8.ofNat n := by
    intro n h1 h2 h
    have := congrArg UInt8.toNat h
    simp at this
    omega
  unfold String.utf8EncodeChar at hb
  simp only at hb
  split at hb
  · simp at hb
    exact key _ (by omega) hv hb
  · split at hb
    · simp only [List.mem_cons, List.not_mem_nil, or_false] at hb
      rcases hb with hb | hb <;> exact key _ (by omega) (by omega) hb
    · split at hb
      · simp only [List.mem_cons, List.not_mem_nil, or_false] at hb
        rcases hb with hb | hb | hb <;> exact key _ (by omega) (by omega) hb
      · simp only [List.mem_cons, List.not_mem_nil, or_false] at hb
        rcases hb with hb | hb | hb | hb <;> exact key _ (by omega) (by omega) hb

theorem utf8EncodeChar_ne_nil (c : Char) : String.utf8EncodeChar c ≠ [] := String.utf8EncodeChar_ne_nil

theorem Str.bytes_eq_nil {s : Str} : s.bytes = [] ↔ s = [] := by
  constructor
  · intro h
    exact Str.bytes_inj (t := []) h
  · rintro rfl; rfl

theorem splitLine_append (xs ys : List UInt8) (h : ∀ b ∈ xs, b ≠ (10 : UInt8)) :
    splitLine (xs ++ ys) = (xs ++ (splitLine ys).1, (splitLine ys).2.1, (splitLine ys).2.2) := by
  induction xs with
  | nil => rfl
  | cons x xs ih =>
    have hx : x ≠ 10 := h x (by simp)
    have := ih (fun b hb => h b (by simp [hb]))
    simp [splitLine, hx, this]

theorem splitLine_join (bs : List UInt8) : (splitLine bs).1 ++ (splitLine bs).2.1 = bs := by
  induction bs with
  | nil => rfl
  | cons b bs ih =>
    unfold splitLine
    split
    · simp
    · simp [ih]

theorem splitLine_notFound (bs : List UInt8) (h : (splitLine bs).2.2 = false) : (splitLine bs).2.1 = [] := by
  induction bs with
  | nil => rfl
  | cons b bs ih =>
    unfold splitLine at h ⊢
    split
    · next h1 => simp [h1] at h
    · next h1 => simp [h1] at h ⊢; exact ih h

theorem splitInclusive_newline (cs : Str) : splitInclusive ('\n' :: cs) = ['\n'] :: splitInclusive cs := by
  rw [splitInclusive]; rfl

theorem splitInclusive_cons {c : Char} (hc : c ≠ '\n') {cs : Str} {l : Str} {ls : List Str}
    (h : splitInclusive cs = l :: ls) : splitInclusive (c :: cs) = (c :: l) :: ls := by
  rw [splitInclusive, if_neg hc, h]

theorem splitInclusive_single {c : Char} (hc : c ≠ '\n') : splitInclusive [c] = [[c]] := by
  rw [splitInclusive, if_neg hc]; rfl

/-- One step of reading a text: the first line. -/
theorem splitInclusive_step (s : Str) (hs : s ≠ []) :
    ∃ l rest f, splitInclusive s = l :: splitInclusive rest ∧ s = l ++ rest ∧ l ≠ [] ∧
      splitLine s.bytes = (l.bytes, rest.bytes, f) := by
  induction s with
  | nil => exact absurd rfl hs
  | cons c cs ih =>
    by_cases hc : c = '\n'
    · subst hc
      refine ⟨['\n'], cs, true, splitInclusive_newline cs, rfl, by simp, ?_⟩
      show splitLine (String.utf8EncodeChar '\n' ++ Str.bytes cs) = (String.utf8EncodeChar '\n' ++ [], Str.bytes cs, true)
      rw [newline_bytes]
      rfl
    · by_cases hcs : cs = []
      · subst hcs
        refine ⟨[c], [], false, splitInclusive_single hc, rfl, by simp, ?_⟩
        rw [Str.bytes_cons, splitLine_append _ _ (not_newline_bytes hc)]
        rfl
      · obtain ⟨l, rest, f, h1, h2, h3, h4⟩ := ih hcs
        refine ⟨c :: l, rest, f, splitInclusive_cons hc h1, by simp [h2], by simp, ?_⟩
        rw [Str.bytes_cons, splitLine_append _ _ (not_newline_bytes hc), h4]
        rfl

theorem readLoop_text (fuel : Nat) (s : Str) (lines : List Str) (hf : s.length < fuel) :
    readLoop fuel ⟨s.bytes, false⟩ lines = .ok (lines ++ splitInclusive s) := by
  induction fuel generalizing s lines with
  | zero => omega
  | succ fuel ih =>
    by_cases hs : s = []
    · subst hs
      simp [readLoop, readLine, splitLine, splitInclusive, show decodeUtf8 [] = some [] from decodeUtf8_bytes []]
    · obtain ⟨l, rest, f, h1, h2, h3, h4⟩ := splitInclusive_step s hs
      have hlen : rest.length < fuel := by
        have : l.length ≠ 0 := by simpa using h3
        have := congrArg List.length h2
        simp at this
        omega
      simp [readLoop, readLine, h4, decodeUtf8_bytes, h3, ih rest _ hlen, h1]

theorem length_le_bytes (s : Str) : s.length ≤ s.bytes.length := by
  induction s with
  | nil => simp
  | cons c s ih =>
    have : (String.utf8EncodeChar c).length ≠ 0 := by
      intro h; exact utf8EncodeChar_ne_nil c (List.length_eq_zero_iff.1 h)
    simp only [Str.bytes_cons, List.length_cons, List.length_append]
    omega

theorem readText_bytes (s : Str) : readText ⟨s.bytes, false⟩ = .ok (splitInclusive s) := by
  have := length_le_bytes s
  rw [readText, readLoop_text _ s [] (by simp; omega)]
  rfl

theorem flatten_splitInclusive (s : Str) : (splitInclusive s).flatten = s := by
  induction h : s.length using Nat.strongRecOn generalizing s with
  | _ n ih =>
    by_cases hs : s = []
    · subst hs; rfl
    · obtain ⟨l, rest, f, h1, h2, h3, h4⟩ := splitInclusive_step s hs
      have hl : l.length ≠ 0 := by simpa using h3
      have := ih rest.length (by rw [h2] at h; simp at h; omega) rest rfl
      rw [h1, List.flatten_cons, this, ← h2]

/-- Whatever `read` accepts is the concatenation of the lines it returns. -/
theorem readLoop_sound (fuel : Nat) (r : Reader) (lines out : List Str) (h : readLoop fuel r lines = .ok out) :
    r.fails = false ∧ ∃ more, out = lines ++ more ∧ r.data = (more.flatMap Str.bytes) := by
  induction fuel generalizing r lines with
  | zero => simp [readLoop] at h
  | succ fuel ih =>
    unfold readLoop at h
    rw [Outcome.bind_eq_ok] at h
    obtain ⟨⟨line, r'⟩, h1, h2⟩ := h
    unfold readLine at h1
    simp only at h1
    split at h1
    · simp at h1
    · next hf =>
      split at h1
      · next s hd =>
        rw [decodeUtf8_eq_some] at hd
        injection h1 with h1
        obtain ⟨rfl, rfl⟩ := Prod.mk.inj h1
        simp only at h2
        split at h2
        · next he =>
          injection h2 with h2
          subst h2
          have he : s = [] := by simpa using he
          subst he
          have hnil : r.data = [] := by
            have hj := splitLine_join r.data
            cases hd0 : r.data with
            | nil => rfl
            | cons b bs =>
              exfalso
              rw [hd0] at hd
              unfold splitLine at hd
              split at hd <;> simp at hd
          refine ⟨?_, [], by simp, by simp [hnil]⟩
          rw [hnil] at hf
          simpa [splitLine] using hf
        · obtain ⟨h3, more, h4, h5⟩ := ih _ _ h2
          refine ⟨h3, s :: more, by simp [h4], ?_⟩
          simp only at h5
          rw [List.flatMap_cons, hd, ← h5, splitLine_join]
      · simp at h1

theorem flatMap_bytes (ls : List Str) : ls.flatMap Str.bytes = Str.bytes ls.flatten := by
  induction ls with
  | nil => rfl
  | cons l ls ih => simp [List.flatMap_cons, ih]

/-- The complete behaviour of `Seq::<String>::read`. -/
theorem readText_eq_ok_iff (r : Reader) (ls : List Str) :
    readText r = .ok ls ↔ r.fails = false ∧ ∃ s : Str, s.bytes = r.data ∧ ls = splitInclusive s := by
  constructor
  · intro h
    obtain ⟨h1, more, h2, h3⟩ := readLoop_sound _ _ _ _ h
    refine ⟨h1, ls.flatten, ?_, ?_⟩
    · rw [h3, flatMap_bytes]; simp [h2]
    · have hr : r = ⟨Str.bytes more.flatten, false⟩ := by
        cases r; simp at h1 h3; simp [h1, h3, flatMap_bytes]
      rw [hr, readText_bytes] at h
      injection h with h
      simp at h2
      rw [h2] at h ⊢
      exact h.symm
  · rintro ⟨h1, s, h2, rfl⟩
    have hr : r = ⟨s.bytes, false⟩ := by cases r; simp at h1 h2; simp [h1, h2]
    rw [hr, readText_bytes]

/-- `read` fails with an io error or succeeds; it neither panics nor loops. -/
theorem readText_total (r : Reader) : readText r = .ioErr ∨ ∃ ls, readText r = .ok ls := by
  have key : ∀ fuel (r : Reader) lines, r.data.length < fuel →
      readLoop fuel r lines = .ioErr ∨ ∃ ls, readLoop fuel r lines = .ok ls := by
    intro fuel
    induction fuel with
    | zero => intros; omega
    | succ fuel ih =>
      intro r lines hlen
      unfold readLoop readLine
      simp only
      split
      · left; rfl
      · split
        · next s hd =>
          rw [decodeUtf8_eq_some] at hd
          simp only [Outcome.ok_bind]
          split
          · right; exact ⟨_, rfl⟩
          · next hs =>
            apply ih
            have hj := congrArg List.length (splitLine_join r.data)
            rw [List.length_append] at hj
            have : (splitLine r.data).1.length ≠ 0 := by
              rw [← hd]
              intro h
              apply hs
              rw [Str.bytes_eq_nil.1 (List.length_eq_zero_iff.1 h)]; rfl
            show (splitLine r.data).2.1.length < fuel
            have e : (splitLine r.data).2.1.length = (splitLine r.data).snd.fst.length := rfl
            omega
        · left; rfl
  exact key _ r [] (by omega)

end PwDiff
