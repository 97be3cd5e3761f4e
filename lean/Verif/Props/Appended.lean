import Verif.Props.Faults

/-! # C85: text after a diff -/

namespace PwDiff

/-- The bytes of JSON's white space. -/
def IsBlank (b : UInt8) : Prop := b = 32 ∨ b = 10 ∨ b = 9 ∨ b = 13

instance (b : UInt8) : Decidable (IsBlank b) := by unfold IsBlank; infer_instance

namespace Json

theorem skipSpace_isEmpty (s : Str) : (skipSpace s).isEmpty = true ↔ ∀ c ∈ s, isSpace c = true := by
  induction s with
  | nil => simp [skipSpace]
  | cons c s ih =>
    unfold skipSpace
    split
    · next h => simp [ih, h]
    · next h => simp [h]

theorem readDocument_appended {fs : List (Str × Json)} (h : Storable (.obj fs)) (e : Str) :
    readDocument (text 0 (.obj fs) ++ e) = if ∀ c ∈ e, isSpace c = true then some (.obj fs) else none := by
  have hr : Stop [] := by intro c cs e; cases e
  have e1 := readValue_text 0 _ h [] hr ((text 0 (.obj fs)).length + 1) (by simp)
  rw [List.append_nil] at e1
  obtain ⟨u, hu⟩ : ∃ u, text 0 (.obj fs) = '{' :: u := by
    cases fs with
    | nil => exact ⟨_, rfl⟩
    | cons f fs => exact ⟨_, rfl⟩
  rw [hu] at e1 ⊢
  have e2 := (read_append _).1 _ _ _ e ((('{' :: u) ++ e).length + 1) e1 (by simp only [List.length_append]; omega) (.inr (.inr rfl))
  unfold readDocument
  rw [show skipSpace ('{' :: u ++ e) = '{' :: u ++ e from rfl, e2]
  simp only [List.nil_append, Option.bind_eq_bind, Option.bind_some, skipSpace_isEmpty]
  rfl

end Json

theorem space_bytes (c : Char) : Json.isSpace c = true ↔ ∀ b ∈ Str.bytes [c], IsBlank b := by
  constructor
  · intro h
    simp only [Json.isSpace, Bool.or_eq_true, decide_eq_true_eq] at h
    rcases h with ((rfl | rfl) | rfl) | rfl <;> decide
  · intro h
    have hne : Str.bytes [c] ≠ [] := by
      have h2 := String.length_utf8EncodeChar c
      have h3 := Char.utf8Size_pos c
      intro e
      have := congrArg List.length e
      simp [Str.bytes] at this
      omega
    cases hb : Str.bytes [c] with
    | nil => exact absurd hb hne
    | cons b bs =>
      rw [hb] at h
      have h1 := h b (by simp)
      have key : ∀ d : Char, Str.bytes [d] = [b] → c = d := by
        intro d hd
        obtain ⟨v, hv⟩ := Str.bytes_prefix (s := [d]) (u := [c]) (t := bs) (by rw [hd, hb]; rfl)
        cases v with
        | nil => simpa using hv
        | cons x v => simp at hv
      rcases h1 with rfl | rfl | rfl | rfl
      · rw [key ' ' (by decide)]; decide
      · rw [key '\n' (by decide)]; decide
      · rw [key '\t' (by decide)]; decide
      · rw [key '\r' (by decide)]; decide

/-- A written diff followed by anything: read as that diff if white space follows, and refused otherwise. -/
theorem C85_appended (d : Diff) (hd : d.InRange) (out : List UInt8) (h : d.toWriter.run = (.ok (), out)) (extra : List UInt8) :
    Diff.fromReader ⟨out ++ extra, false⟩ = if ∀ b ∈ extra, IsBlank b then .ok d else .ioErr := by
  have hp : ∀ path ∈ d.paths, IsUtf8 path := (C45_fails d).1.1 (by rw [h])
  have e := (toWriter_fromReader d hd hp).1
  rw [e, WM.run_emit] at h
  obtain rfl := (Prod.mk.inj h).2
  have hs := Json.storable_ofDiff d hd hp
  have ht := Json.toDiff_ofDiff d hd hp
  obtain ⟨k, x, e'⟩ := Json.ofDiff_obj d
  rw [e'] at hs ht ⊢
  unfold Diff.fromReader
  rw [if_neg (by simp)]
  simp only
  cases hdec : decodeUtf8 ((Json.text 0 (.obj [(k, x)])).bytes ++ extra) with
  | none =>
    rw [if_neg]
    intro hb
    have : ∃ e : Str, e.bytes = extra := by
      clear hdec
      induction extra with
      | nil => exact ⟨[], rfl⟩
      | cons b bs ih =>
        obtain ⟨e, he⟩ := ih (fun b h => hb b (by simp [h]))
        rcases hb b (by simp) with rfl | rfl | rfl | rfl
        · exact ⟨' ' :: e, by rw [← he]; rfl⟩
        · exact ⟨'\n' :: e, by rw [← he]; rfl⟩
        · exact ⟨'\t' :: e, by rw [← he]; rfl⟩
        · exact ⟨'\r' :: e, by rw [← he]; rfl⟩
    obtain ⟨e, rfl⟩ := this
    rw [show (Json.text 0 (.obj [(k, x)])).bytes ++ e.bytes = Str.bytes (Json.text 0 (.obj [(k, x)]) ++ e) by
      simp [Str.bytes], decodeUtf8_bytes] at hdec
    cases hdec
  | some s =>
    simp only
    have hb := decodeUtf8_eq_some.1 hdec
    obtain ⟨v, rfl⟩ := Str.bytes_prefix hb.symm
    have hv : v.bytes = extra := by
      have : Str.bytes (Json.text 0 (.obj [(k, x)]) ++ v) = (Json.text 0 (.obj [(k, x)])).bytes ++ v.bytes := by simp [Str.bytes]
      rw [this] at hb
      exact List.append_cancel_left hb
    rw [Json.readDocument_appended hs]
    have hiff : (∀ c ∈ v, Json.isSpace c = true) ↔ ∀ b ∈ extra, IsBlank b := by
      rw [← hv]
      simp only [Str.bytes, List.mem_flatMap]
      constructor
      · rintro h b ⟨c, hc, hb⟩
        exact (space_bytes c).1 (h c hc) b (by simpa [Str.bytes] using hb)
      · intro h c hc
        rw [space_bytes]
        intro b hb
        exact h b ⟨c, hc, by simpa [Str.bytes] using hb⟩
    by_cases hb' : ∀ b ∈ extra, IsBlank b
    · rw [if_pos (hiff.2 hb'), if_pos hb']
      simp only [ht]
    · rw [if_neg (fun h => hb' (hiff.1 h)), if_neg hb']

/-- In particular several diffs written one after the other into one file, as for a patch of several files, are refused:
`pw_patch` changes nothing, whatever else goes wrong. -/
theorem C85_several (p : Profile) (temp patch : Path) (rev : Bool) (w : World) (d d' : Diff) (hd : d.InRange)
    (out out' rest : List UInt8) (h : d.toWriter.run = (.ok (), out)) (h' : d'.toWriter.run = (.ok (), out'))
    (hw : w.fs.contentAt patch = some ⟨out ++ (out' ++ rest), false⟩) :
    let (ended, w') := (pwPatch p temp patch rev).run w
    (ended = .exited 1 ∨ ended = .killed) ∧ w'.fs = w.fs ∧ w'.stdout = w.stdout := by
  refine C46_unreadable p temp patch rev w ?_
  intro r hr e he
  rw [hw] at hr
  cases hr
  rw [C85_appended d hd out h, if_neg] at he
  · cases he
  · intro hb
    obtain ⟨init, hi⟩ := toWriter_last h'
    have := hb 125 (by rw [hi]; simp)
    revert this
    decide

/-- A written diff, and what may and what may not follow it. -/
example : exampleAdd.InRange ∧ exampleAdd.toWriter.run.1 = .ok () ∧ (∀ b ∈ [10, 32, 9], IsBlank b) ∧ ¬ ∀ b ∈ [10, 48], IsBlank b :=
  ⟨trivial, by decide +kernel, by decide, by decide⟩

example := C85_appended exampleAdd trivial exampleAdd.toWriter.run.2 (Prod.ext (by decide +kernel) rfl) [10, 48]

end PwDiff
