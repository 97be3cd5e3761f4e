import Verif.Proofs.Recorded
import Verif.Proofs.Unwritable
import Verif.Props.Programs

/-! # C74, C75: incomplete diffs and failing operations -/

namespace PwDiff

open Sys

/-! ## C74 -/

/-- A diff from whose end any number of bytes is missing is refused. -/
theorem C74_truncated (d : Diff) (hd : d.InRange) (out : List UInt8) (h : d.toWriter.run = (.ok (), out)) (n : Nat)
    (hn : n < out.length) : Diff.fromReader ⟨out.take n, false⟩ = .ioErr := by
  have hp : ∀ path ∈ d.paths, IsUtf8 path := (C45_fails d).1.1 (by rw [h])
  have e := (toWriter_fromReader d hd hp).1
  rw [e, WM.run_emit] at h
  obtain rfl := (Prod.mk.inj h).2
  refine fromReader_truncated d hd hp (List.take_append_drop n _) ?_
  rw [Ne, List.drop_eq_nil_iff]
  omega

/-- Whatever else goes wrong, `pw_patch` changes nothing if its patch file is such an incomplete diff. -/
theorem C74_patch (p : Profile) (temp patch : Path) (rev : Bool) (w : World) (d : Diff) (hd : d.InRange) (out : List UInt8)
    (h : d.toWriter.run = (.ok (), out)) (n : Nat) (hn : n < out.length) (hw : w.fs.contentAt patch = some ⟨out.take n, false⟩) :
    let (ended, w') := (pwPatch p temp patch rev).run w
    (ended = .exited 1 ∨ ended = .killed) ∧ w'.fs = w.fs ∧ w'.stdout = w.stdout := by
  refine C46_unreadable p temp patch rev w ?_
  intro r hr e he
  rw [hw] at hr
  cases hr
  rw [C74_truncated d hd out h n hn] at he
  cases he

/-- However `pw_diff` ends: it has written a part of what `to_writer` writes for the diff it made, or nothing. -/
theorem pwDiff_stdout (p : Profile) (before after : Path) (context : Nat) (w : World) :
    ((pwDiff p before after context).run w).2.stdout = w.stdout ∨
    ∃ (d : Diff) (w1 : World) (n : Nat), Diff.new p before after context w = (.ok (some d), w1) ∧
      ((pwDiff p before after context).run w).2.stdout = w.stdout ++ d.toWriter.run.2.take n := by
  let Good (w' : World) : Prop := w'.stdout = w.stdout ∨ ∃ (d : Diff) (w1 : World) (n : Nat),
    Diff.new p before after context w = (.ok (some d), w1) ∧ w'.stdout = w.stdout ++ d.toWriter.run.2.take n
  have main : (pwDiff p before after context).Sat w fun _ w' => Good w' := by
    unfold pwDiff
    apply Sat.bind
    have hq : (Diff.new p before after context).Sat w fun r w1 =>
        (w1.fs = w.fs ∧ w1.stdout = w.stdout ∧ ((∃ a, r = .ok a) ∨ r = .error .killed)) ∧
          Diff.new p before after context w = (r, w1) := ⟨quiet_diffNew p before after context w, rfl⟩
    refine hq.mono ?_
    rintro r w1 ⟨⟨-, h2, -⟩, hd⟩
    cases r with
    | error e => exact .inl h2
    | ok o =>
      cases o with
      | none => exact .inl h2
      | some d =>
        have part : ∀ (n : Nat) (w' : World), w'.stdout = w1.stdout ++ d.toWriter.run.2.take n → Good w' :=
          fun n w' h => .inr ⟨d, w1, n, hd, by rw [h, h2]⟩
        have rest : ∀ (r : Outcome Unit) (w' : World), Good w' → (do
            let some _ ← ofOutcome r | exit 5
            return () : Sys Unit).Sat w' fun _ w' => Good w' := by
          intro r w' h
          cases r <;> exact h
        apply Sat.bind
        unfold writeStdout
        apply sat_operation
        · intro fl
          exact rest _ _ (part d.toWriter.run.2.length _ (by rw [List.take_length]))
        · intro fl n
          exact rest _ _ (part n _ rfl)
        · intro fl n
          exact part n _ rfl
  unfold Sat at main
  unfold Sys.run
  cases hm : pwDiff p before after context w with
  | mk r w' =>
    rw [hm] at main
    cases r <;> exact main

/-- Whatever goes wrong and however `pw_diff` ends: what it leaves on its standard output is refused, or it is read as the
diff that was made. -/
theorem C74_output (p : Profile) (before after : Path) (context : Nat) (w : World) (hs : w.stdout = []) (hctx : context ≤ 255)
    (hb : ∀ r, w.fs.contentAt before = some r → r.data.length < 2 ^ 64)
    (ha : ∀ r, w.fs.contentAt after = some r → r.data.length < 2 ^ 64) :
    Diff.fromReader ⟨((pwDiff p before after context).run w).2.stdout, false⟩ = .ioErr ∨
    ∃ (d : Diff) (w1 : World), Diff.new p before after context w = (.ok (some d), w1) ∧
      Diff.fromReader ⟨((pwDiff p before after context).run w).2.stdout, false⟩ = .ok d := by
  rcases pwDiff_stdout p before after context w with h | ⟨d, w1, n, h1, h2⟩
  · left
    rw [h, hs]
    unfold Diff.fromReader
    rw [if_neg (by simp), show (([] : List UInt8)) = Str.bytes [] from rfl, decodeUtf8_bytes]
    rfl
  · have hg := gives_diffNew (fs := w.fs) p before after context w rfl
    unfold Sat at hg
    rw [h1] at hg
    have hd := (hg.2 _ rfl d rfl).inRange hctx hb ha
    rw [h2, hs, List.nil_append]
    rcases fromReader_part d hd n with ⟨h3, -⟩ | h3
    · exact .inr ⟨d, w1, h1, h3⟩
    · exact .inl h3

/-- A complete diff, and the same with the last byte missing. -/
example : exampleAdd.InRange ∧ exampleAdd.toWriter.run.1 = .ok () ∧ exampleAdd.toWriter.run.2.length = 55 :=
  ⟨trivial, by decide +kernel, by decide +kernel⟩
/-- `pw_diff` ends with status 0 although the last byte could not be written. -/
example : ((pwDiff .debug [67] [65] 3).run ⟨FS.ofFiles [([65], [])], [.none, .none, .none, .fail 54], []⟩).1 = .exited 0 := by
  decide +kernel

/-! ## C75 -/

/-- The full statement of C75: if `Diff::new` makes a diff, it is of the kind and records what the two files demand. -/
def C75_statement : Prop :=
  ∀ (p : Profile) (before after : Path) (context : Nat) (w w' : World) (d : Diff),
    Diff.new p before after context w = (.ok (some d), w') → Made p w.fs before after context d

/-- It fails if the existence of a file cannot be determined: the second file is then taken for a removed one. -/
theorem C75_refuted : ¬ C75_statement := by
  intro h
  have h1 := h .debug [65] [67] 3 ⟨FS.ofFiles [([65], []), ([67], [])], [.none, .fail 0], []⟩
    ⟨FS.ofFiles [([65], []), ([67], [])], [], []⟩ (.textRemove ⟨[65], []⟩) rfl
  have h2 := h1.2.1
  revert h2
  decide

/-- What holds whatever goes wrong: the paths, the contents and the clumps that the diff records are those of the files. -/
theorem C75_partial (p : Profile) (before after : Path) (context : Nat) (w w' : World) (d : Diff)
    (h : Diff.new p before after context w = (.ok (some d), w')) : w'.fs = w.fs ∧ Recorded p w.fs before after context d := by
  have hg := gives_diffNew (fs := w.fs) p before after context w rfl
  unfold Sat at hg
  rw [h] at hg
  exact ⟨hg.1, hg.2 _ rfl d rfl⟩

/-- The second file is not found in this run. -/
example : Diff.new .debug [65] [67] 3 ⟨FS.ofFiles [([65], []), ([67], [])], [.none, .fail 0], []⟩ =
    (.ok (some (.textRemove ⟨[65], []⟩)), ⟨FS.ofFiles [([65], []), ([67], [])], [], []⟩) := rfl

example := C74_truncated exampleAdd trivial exampleAdd.toWriter.run.2
  (Prod.ext (show exampleAdd.toWriter.run.1 = .ok () by decide +kernel) rfl) 20 (by decide +kernel)
example (w : World) (hw : w.fs.contentAt [67] = some ⟨exampleAdd.toWriter.run.2.take 20, false⟩) :=
  C74_patch .debug [84] [67] false w exampleAdd trivial exampleAdd.toWriter.run.2
    (Prod.ext (show exampleAdd.toWriter.run.1 = .ok () by decide +kernel) rfl) 20 (by decide +kernel) hw

end PwDiff
