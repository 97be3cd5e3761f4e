import Verif.Proofs.Normal

/-! # What a diff records, whatever operations fail -/

namespace PwDiff

open Sys

/-- Everything the diff records about the files is so: the paths, the contents, the clumps. -/
def Recorded (p : Profile) (fs : FS) (before after : Path) (context : Nat) : Diff → Prop
  | .textChange d => d.beforePath = before ∧ d.afterPath = after ∧ ∃ s t : Str,
      fs.contentAt before = some ⟨s.bytes, false⟩ ∧ fs.contentAt after = some ⟨t.bytes, false⟩ ∧
      diffClumps p (splitInclusive s) (splitInclusive t) context = .ok d.clumps
  | .byteChange d => d.beforePath = before ∧ d.afterPath = after ∧ d.compressed = false ∧ ∃ b a,
      fs.contentAt before = some ⟨b, false⟩ ∧ fs.contentAt after = some ⟨a, false⟩ ∧
      diffClumps p b a context = .ok d.clumps
  | .textRemove d => d.path = before ∧ ∃ s : Str, fs.contentAt before = some ⟨s.bytes, false⟩ ∧ d.lines = splitInclusive s
  | .byteRemove d => d.path = before ∧ d.compressed = false ∧ fs.contentAt before = some ⟨d.bytes, false⟩
  | .textAdd d => d.path = before ∧ ∃ s : Str, fs.contentAt after = some ⟨s.bytes, false⟩ ∧ d.lines = splitInclusive s
  | .byteAdd d => d.path = before ∧ d.compressed = false ∧ fs.contentAt after = some ⟨d.bytes, false⟩

/-- The action leaves the file system alone and its result, if any, satisfies the condition. -/
def Gives {α : Type} (fs : FS) (m : Sys α) (R : α → Prop) : Prop :=
  ∀ w : World, w.fs = fs → m.Sat w fun r w' => w'.fs = fs ∧ ∀ a, r = .ok a → R a

variable {α β : Type} {fs : FS}

theorem Gives.bind {m : Sys α} {f : α → Sys β} {R : α → Prop} {S : β → Prop} (hm : Gives fs m R) (hf : ∀ a, R a → Gives fs (f a) S) :
    Gives fs (m >>= f) S := by
  intro w hw
  apply Sat.bind
  refine (hm w hw).mono ?_
  rintro r w' ⟨h1, h2⟩
  cases r with
  | ok a => exact hf a (h2 a rfl) w' h1
  | error e => exact ⟨h1, by intro a h; cases h⟩

theorem gives_pure {a : α} {R : α → Prop} (h : R a) : Gives fs (pure a : Sys α) R :=
  fun _ hw => ⟨hw, by rintro _ ⟨⟩; exact h⟩

theorem gives_pathExists (path : Path) : Gives fs (pathExists path) fun _ => True := by
  intro w hw
  apply sat_operation
  · intro fl; exact ⟨hw, fun _ _ => trivial⟩
  · intro fl n; exact ⟨hw, fun _ _ => trivial⟩
  · intro fl n; exact ⟨hw, fun _ _ => trivial⟩

theorem gives_openFile (path : Path) :
    Gives fs (openFile path) fun o => ∀ r, o = some r → r.fails = false → fs.contentAt path = some r := by
  intro w hw
  subst hw
  apply sat_openFile
  · intro fl h
    exact ⟨rfl, by rintro _ ⟨⟩ _ ⟨⟩⟩
  · intro fl
    exact ⟨rfl, by rintro _ ⟨⟩⟩
  · intro fl r hr
    refine ⟨rfl, ?_⟩
    rintro _ ⟨⟩ _ ⟨⟩ h
    rw [hr] at h
    cases h
  · intro fl r hr
    refine ⟨rfl, ?_⟩
    rintro _ ⟨⟩ _ ⟨⟩ _
    exact hr

theorem gives_ofOutcome {o : Outcome α} (h : o = .ioErr ∨ ∃ a, o = .ok a) : Gives fs (ofOutcome o) fun x => ∀ a, x = some a → o = .ok a := by
  rcases h with rfl | ⟨a, rfl⟩
  · exact gives_pure (by rintro _ ⟨⟩)
  · exact gives_pure (by rintro _ ⟨⟩; rfl)

theorem readText_content {r : Reader} {ls : List Str} (h : readText r = .ok ls) :
    ∃ s : Str, r = ⟨s.bytes, false⟩ ∧ ls = splitInclusive s := by
  obtain ⟨h1, s, h2, h3⟩ := (readText_eq_ok_iff r ls).1 h
  obtain ⟨data, fails⟩ := r
  simp only at h1 h2
  subst h1 h2
  exact ⟨s, rfl, h3⟩

theorem readBytes_content {r : Reader} {bs : List UInt8} (h : readBytes r = .ok bs) : r = ⟨bs, false⟩ := by
  obtain ⟨data, fails⟩ := r
  cases fails with
  | true => cases h
  | false => cases h; rfl

theorem gives_pathAndLines (path : Path) : Gives fs (PathAndLines.new path) fun o => ∀ d, o = some d →
    d.path = path ∧ ∃ s : Str, fs.contentAt path = some ⟨s.bytes, false⟩ ∧ d.lines = splitInclusive s := by
  unfold PathAndLines.new
  refine (gives_openFile _).bind fun o ho => ?_
  cases o with
  | none => exact gives_pure (by rintro _ ⟨⟩)
  | some r =>
    refine (gives_ofOutcome (readText_total r)).bind fun o hl => ?_
    cases o with
    | none => exact gives_pure (by rintro _ ⟨⟩)
    | some ls =>
      obtain ⟨s, rfl, e⟩ := readText_content (hl _ rfl)
      exact gives_pure (by rintro _ ⟨⟩; exact ⟨rfl, s, ho _ rfl rfl, e⟩)

theorem gives_pathAndBytes (path : Path) : Gives fs (PathAndBytes.new path) fun o => ∀ d, o = some d →
    d.path = path ∧ d.compressed = false ∧ fs.contentAt path = some ⟨d.bytes, false⟩ := by
  unfold PathAndBytes.new
  refine (gives_openFile _).bind fun o ho => ?_
  cases o with
  | none => exact gives_pure (by rintro _ ⟨⟩)
  | some r =>
    refine (gives_ofOutcome (readBytes_total r)).bind fun o hl => ?_
    cases o with
    | none => exact gives_pure (by rintro _ ⟨⟩)
    | some ls =>
      obtain rfl := readBytes_content (hl _ rfl)
      exact gives_pure (by rintro _ ⟨⟩; exact ⟨rfl, rfl, ho _ rfl rfl⟩)

theorem gives_textChange (p : Profile) (before after : Path) (context : Nat) :
    Gives fs (TextChangeDiff.new p before after context) fun o => ∀ d, o = some d →
      Recorded p fs before after context (.textChange d) := by
  unfold TextChangeDiff.new
  refine (gives_openFile _).bind fun o ho => ?_
  cases o with
  | none => exact gives_pure (by rintro _ ⟨⟩)
  | some r =>
    refine (gives_ofOutcome (readText_total r)).bind fun o hl => ?_
    cases o with
    | none => exact gives_pure (by rintro _ ⟨⟩)
    | some ls =>
      obtain ⟨s, rfl, rfl⟩ := readText_content (hl _ rfl)
      refine (gives_openFile _).bind fun o ho' => ?_
      cases o with
      | none => exact gives_pure (by rintro _ ⟨⟩)
      | some r =>
        refine (gives_ofOutcome (readText_total r)).bind fun o hm => ?_
        cases o with
        | none => exact gives_pure (by rintro _ ⟨⟩)
        | some ms =>
          obtain ⟨t, rfl, rfl⟩ := readText_content (hm _ rfl)
          refine (gives_ofOutcome (.inr (diffClumps_total p _ _ context))).bind fun o hc => ?_
          cases o with
          | none => exact gives_pure (by rintro _ ⟨⟩)
          | some cs => exact gives_pure (by rintro _ ⟨⟩; exact ⟨rfl, rfl, s, t, ho _ rfl rfl, ho' _ rfl rfl, hc _ rfl⟩)

theorem gives_byteChange (p : Profile) (before after : Path) (context : Nat) :
    Gives fs (ByteChangeDiff.new p before after context) fun o => ∀ d, o = some d →
      Recorded p fs before after context (.byteChange d) := by
  unfold ByteChangeDiff.new
  refine (gives_openFile _).bind fun o ho => ?_
  cases o with
  | none => exact gives_pure (by rintro _ ⟨⟩)
  | some r =>
    refine (gives_ofOutcome (readBytes_total r)).bind fun o hl => ?_
    cases o with
    | none => exact gives_pure (by rintro _ ⟨⟩)
    | some ls =>
      obtain rfl := readBytes_content (hl _ rfl)
      refine (gives_openFile _).bind fun o ho' => ?_
      cases o with
      | none => exact gives_pure (by rintro _ ⟨⟩)
      | some r =>
        refine (gives_ofOutcome (readBytes_total r)).bind fun o hm => ?_
        cases o with
        | none => exact gives_pure (by rintro _ ⟨⟩)
        | some ms =>
          obtain rfl := readBytes_content (hm _ rfl)
          refine (gives_ofOutcome (.inr (diffClumps_total p _ _ context))).bind fun o hc => ?_
          cases o with
          | none => exact gives_pure (by rintro _ ⟨⟩)
          | some cs => exact gives_pure (by rintro _ ⟨⟩; exact ⟨rfl, rfl, rfl, _, _, ho _ rfl rfl, ho' _ rfl rfl, hc _ rfl⟩)

theorem gives_diffNew (p : Profile) (before after : Path) (context : Nat) :
    Gives fs (Diff.new p before after context) fun o => ∀ d, o = some d → Recorded p fs before after context d := by
  unfold Diff.new
  refine (gives_pathExists _).bind fun b _ => ?_
  cases b with
  | true =>
    simp only [if_true]
    refine (gives_pathExists _).bind fun b _ => ?_
    cases b with
    | true =>
      simp only [if_true]
      refine (gives_textChange p before after context).bind fun o ho => ?_
      cases o with
      | some d => exact gives_pure (by rintro _ ⟨⟩; exact ho _ rfl)
      | none =>
        refine (gives_byteChange p before after context).bind fun o ho => ?_
        cases o with
        | some d => exact gives_pure (by rintro _ ⟨⟩; exact ho _ rfl)
        | none => exact gives_pure (by rintro _ ⟨⟩)
    | false =>
      simp only [Bool.false_eq_true, if_false]
      refine (gives_pathAndLines _).bind fun o ho => ?_
      cases o with
      | some d => exact gives_pure (by rintro _ ⟨⟩; exact ho _ rfl)
      | none =>
        refine (gives_pathAndBytes _).bind fun o ho => ?_
        cases o with
        | some d => exact gives_pure (by rintro _ ⟨⟩; exact ho _ rfl)
        | none => exact gives_pure (by rintro _ ⟨⟩)
  | false =>
    simp only [Bool.false_eq_true, if_false]
    refine (gives_pathExists _).bind fun b _ => ?_
    cases b with
    | true =>
      simp only [if_true]
      refine (gives_pathAndLines _).bind fun o ho => ?_
      cases o with
      | some d => exact gives_pure (by rintro _ ⟨⟩; exact ⟨rfl, (ho _ rfl).2⟩)
      | none =>
        refine (gives_pathAndBytes _).bind fun o ho => ?_
        cases o with
        | some d => exact gives_pure (by rintro _ ⟨⟩; exact ⟨rfl, (ho _ rfl).2⟩)
        | none => exact gives_pure (by rintro _ ⟨⟩)
    | false =>
      simp only [Bool.false_eq_true, if_false]
      exact gives_pure (by rintro _ ⟨⟩)

theorem length_splitInclusive_le (s : Str) : (splitInclusive s).length ≤ s.bytes.length := by
  induction h : s.length using Nat.strongRecOn generalizing s with
  | _ n ih =>
    by_cases hs : s = []
    · subst hs
      exact Nat.zero_le _
    · obtain ⟨l, rest, f, h1, rfl, h3, -⟩ := splitInclusive_step s hs
      have hl : 0 < l.length := List.length_pos_iff.2 h3
      have := ih rest.length (by rw [← h]; simp only [List.length_append]; omega) rest rfl
      have h4 := length_le_bytes l
      rw [h1, Str.bytes_append]
      simp only [List.length_cons, List.length_append]
      omega

theorem Recorded.inRange {p : Profile} {before after : Path} {context : Nat} {d : Diff} (h : Recorded p fs before after context d)
    (hctx : context ≤ 255) (hb : ∀ r, fs.contentAt before = some r → r.data.length < wordSize)
    (ha : ∀ r, fs.contentAt after = some r → r.data.length < wordSize) : d.InRange := by
  cases d with
  | textChange d =>
    obtain ⟨-, -, s, t, h1, h2, h3⟩ := h
    exact clumps_inRange hctx h3 (Nat.lt_of_le_of_lt (length_splitInclusive_le s) (hb _ h1))
      (Nat.lt_of_le_of_lt (length_splitInclusive_le t) (ha _ h2))
  | byteChange d =>
    obtain ⟨-, -, -, s, t, h1, h2, h3⟩ := h
    exact clumps_inRange hctx h3 (hb _ h1) (ha _ h2)
  | textAdd d => trivial
  | textRemove d => trivial
  | byteAdd d => trivial
  | byteRemove d => trivial

end PwDiff
