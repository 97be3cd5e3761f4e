import Verif.Proofs.JsonDiff
import Verif.Props.Programs

/-!
# What is accepted as a patch (C88)

`SpecJson.lean` defines which texts are JSON documents (RFC 8259, without any reference to the reader) and which documents
stand for which diffs.
-/

namespace PwDiff

open Json

/-- `from_reader` gives a diff exactly on the UTF-8 encodings of the JSON documents that stand for it; it refuses everything
else. -/
theorem C88_language (data : List UInt8) (d : Diff) :
    Diff.fromReader ⟨data, false⟩ = .ok d ↔ ∃ (s : Str) (j : Json), data = s.bytes ∧ IsDocument j s ∧ StandsFor d j := by
  unfold Diff.fromReader
  simp only [Bool.false_eq_true, if_false]
  constructor
  · intro h
    cases hd : decodeUtf8 data with
    | none => rw [hd] at h; cases h
    | some s =>
      rw [hd] at h
      simp only at h
      cases hj : readDocument s with
      | none => rw [hj] at h; cases h
      | some j =>
        rw [hj] at h
        simp only at h
        cases ht : toDiff j with
        | none => rw [ht] at h; cases h
        | some e =>
          rw [ht] at h
          cases h
          exact ⟨s, j, (decodeUtf8_eq_some.1 hd).symm, (readDocument_iff ..).1 hj, (toDiff_iff ..).1 ht⟩
  · rintro ⟨s, j, rfl, h1, h2⟩
    rw [decodeUtf8_bytes]
    simp only
    rw [(readDocument_iff ..).2 h1]
    simp only
    rw [(toDiff_iff ..).2 h2]

/-- A text is at most one document, and a document stands for at most one diff. -/
theorem C88_unambiguous (s : Str) (j j' : Json) (d d' : Diff) :
    (IsDocument j s → IsDocument j' s → j = j') ∧ (StandsFor d j → StandsFor d' j → d = d') := by
  refine ⟨fun h h' => ?_, fun h h' => ?_⟩
  · have := (readDocument_iff ..).2 h
    rw [(readDocument_iff ..).2 h'] at this
    injection this with this
    exact this.symm
  · have := (toDiff_iff ..).2 h
    rw [(toDiff_iff ..).2 h'] at this
    injection this with this
    exact this.symm

/-- Whatever is read as a diff, however it is spelt: the numbers of the diff fit their types, and the diff can be written
again; what is written is read as the same diff. -/
theorem C88_rewritten (r : Reader) (d : Diff) (h : Diff.fromReader r = .ok d) :
    d.InRange ∧ ∃ out, d.toWriter.run = (.ok (), out) ∧ Diff.fromReader ⟨out, false⟩ = .ok d := by
  obtain ⟨data, fails⟩ := r
  cases fails with
  | true => cases h
  | false =>
    obtain ⟨s, j, -, -, hj⟩ := (C88_language data d).1 h
    refine ⟨hj.inRange, ?_⟩
    obtain ⟨h1, h2⟩ := toWriter_fromReader d hj.inRange hj.paths
    exact ⟨_, by rw [h1]; rfl, h2⟩

/-- `pw_patch` given any other file changes nothing, whatever else goes wrong. -/
theorem C88_refused (p : Profile) (temp patch : Path) (rev : Bool) (w : World) (data : List UInt8) (fails : Bool)
    (hw : w.fs.contentAt patch = some ⟨data, fails⟩)
    (h : ¬ ∃ (s : Str) (j : Json) (d : Diff), data = s.bytes ∧ IsDocument j s ∧ StandsFor d j) :
    let (ended, w') := (pwPatch p temp patch rev).run w
    (ended = .exited 1 ∨ ended = .killed) ∧ w'.fs = w.fs ∧ w'.stdout = w.stdout := by
  refine C46_unreadable p temp patch rev w ?_
  intro r hr d hd
  rw [hw] at hr
  cases hr
  cases fails with
  | true => cases hd
  | false =>
    obtain ⟨s, j, h1, h2, h3⟩ := (C88_language data d).1 hd
    exact h ⟨s, j, d, h1, h2, h3⟩

/-- A hand-made patch: the fields in another order, a field that is not known, escapes, and white space. -/
def handMade : Str := " {\"TextAdd\" : {\"lines\":[\"\\u0041\\n\"],\"note\":[-1.5e3,null],\"path\":\"f\"}}\n".toList

example : ∃ j, IsDocument j handMade ∧ StandsFor (.textAdd ⟨[102], [['A', '\n']]⟩) j := by
  have h : (readDocument handMade).bind toDiff = some (.textAdd ⟨[102], [['A', '\n']]⟩) := by decide +kernel
  obtain ⟨j, h1, h2⟩ := Option.bind_eq_some_iff.1 h
  exact ⟨j, (readDocument_iff ..).1 h1, (toDiff_iff ..).1 h2⟩

/-- A field that is given twice: a document, but not a diff. -/
def givenTwice : Str := "{\"TextAdd\":{\"path\":\"f\",\"lines\":[],\"path\":\"g\"}}".toList

example : (∃ j, IsDocument j givenTwice) ∧ ∀ j d, IsDocument j givenTwice → ¬ StandsFor d j := by
  have h : (readDocument givenTwice).isSome ∧ (readDocument givenTwice).bind toDiff = none := by decide +kernel
  refine ⟨?_, ?_⟩
  · obtain ⟨j, hj⟩ := Option.isSome_iff_exists.1 h.1
    exact ⟨j, (readDocument_iff ..).1 hj⟩
  · intro j d h1 h2
    have h3 := h.2
    rw [(readDocument_iff ..).2 h1, Option.bind_some, (toDiff_iff ..).2 h2] at h3
    cases h3

example (d : Diff) (h : Diff.fromReader ⟨Str.bytes handMade, false⟩ = .ok d) := C88_rewritten ⟨Str.bytes handMade, false⟩ d h

end PwDiff
