import Verif.Props.Tidy

/-! # C47: exactly when a run and a run in the other direction restore the state -/

namespace PwDiff

/-- Exactly when a run followed by a run in the other direction leaves everything as it was, for a patch that adds or removes the file
`path` (`rev` is the direction of the first run, so both kinds of patches and both orders are covered): if a directory has that name
(neither run does anything), if the first run adds the file and there was none, or if the first run removes the file and it had the
recorded content. -/
theorem C47_exact (p q : Profile) (temp patch path : Path) (w : World) (d : Diff) (hp : HoldsDiff w.fs patch d)
    (hf : w.faults = []) (rev : Bool) (hne : w.fs.entry path ≠ w.fs.entry patch)
    {c : List UInt8} (hpatch : w.fs.node (w.fs.entry patch) = some (.file c)) (content : List UInt8)
    (hd : d.creates rev = some (path, content) ∨ d.creates (!rev) = some (path, content)) :
    ((pwPatch q temp patch (!rev)).run ((pwPatch p temp patch rev).run w).2).2.fs = w.fs ↔
      w.fs.node (w.fs.entry path) = some .dir ∨
      (d.creates rev = some (path, content) ∧ w.fs.node (w.fs.entry path) = none) ∨
      (d.creates (!rev) = some (path, content) ∧ w.fs.node (w.fs.entry path) = some (.file content)) := by
  have inv : ∀ rev, d.creates rev = some (path, content) → d.deletes (!rev) = some path := by
    intro rev hc
    cases d <;> cases rev <;> simp [Diff.creates, Diff.deletes] at hc ⊢ <;> exact hc.1
  have held : ∀ x, HoldsDiff (w.fs.set (w.fs.entry path) x) patch d := by
    obtain ⟨r, hr, hd'⟩ := hp
    intro x
    refine ⟨r, ?_, hd'⟩
    rw [FS.contentAt_of_file hpatch] at hr
    rw [FS.contentAt_of_file (c := c) (by simp [Ne.symm hne, hpatch]), hr]
  have both : ¬ (d.creates rev = some (path, content) ∧ d.creates (!rev) = some (path, content)) := by
    cases d <;> cases rev <;> simp [Diff.creates]
  rcases hd with hc | hc
  · have hn : d.creates (!rev) ≠ some (path, content) := fun h => both ⟨hc, h⟩
    have hdel := inv _ hc
    by_cases h1 : w.fs.node (w.fs.entry path) = none
    · have e1 := (C47_normal p temp patch path rev w d hp hf).1 content hc h1
      rw [e1]
      rw [(C47_normal q temp patch path (!rev) ⟨w.fs.set (w.fs.entry path) (some (.file content)), w.faults, w.stdout⟩ d (held _) hf).2
        hdel (by simp) (by simp)]
      simp only [FS.set_entry, FS.set_set, FS.set_same w.fs h1, true_iff]
      exact .inr (.inl ⟨hc, h1⟩)
    · rw [applyDiff_exists p temp patch path rev w d hp hf hc h1]
      by_cases h2 : w.fs.node (w.fs.entry path) = some .dir
      · rw [(C86_normal q temp patch (!rev) w hf (.exited 1) nofun w).2 ⟨.notDeleted hp hdel (.inr h2), rfl⟩]
        simp [h2]
      · rw [(C47_normal q temp patch path (!rev) w d hp hf).2 hdel h1 h2]
        simp only [h1, h2, hn, false_and, and_false, or_false, iff_false]
        intro h
        apply h1
        rw [← h]
        simp
  · have hn : d.creates rev ≠ some (path, content) := fun h => both ⟨h, hc⟩
    have hdel := inv _ hc
    rw [Bool.not_not] at hdel
    by_cases h2 : w.fs.node (w.fs.entry path) = some .dir
    · rw [(C86_normal p temp patch rev w hf (.exited 1) nofun w).2 ⟨.notDeleted hp hdel (.inr h2), rfl⟩]
      rw [applyDiff_exists q temp patch path (!rev) w d hp hf hc (by simp [h2])]
      simp [h2]
    · by_cases h1 : w.fs.node (w.fs.entry path) = none
      · rw [(C86_normal p temp patch rev w hf (.exited 1) nofun w).2 ⟨.notDeleted hp hdel (.inl h1), rfl⟩]
        rw [(C47_normal q temp patch path (!rev) w d hp hf).1 content hc h1]
        simp only [h1, hn, reduceCtorEq, false_and, and_false, or_false, iff_false]
        intro h
        have := congrArg (fun fs => fs.node (w.fs.entry path)) h
        simp [h1] at this
      · rw [(C47_normal p temp patch path rev w d hp hf).2 hdel h1 h2]
        rw [(C47_normal q temp patch path (!rev) ⟨w.fs.set (w.fs.entry path) none, w.faults, w.stdout⟩ d (held _) hf).1 content hc
          (by simp)]
        simp only [FS.set_entry, FS.set_set, h1, h2, hn, false_or, and_false, hc, true_and]
        constructor
        · intro h
          rw [← h]
          simp
        · intro h
          exact FS.set_same w.fs h

/-- The hypotheses are met: the file has another content, and the state is not restored. -/
example : ∃ (w : World), HoldsDiff w.fs [67] exampleRemove ∧ w.fs.node (w.fs.entry [65]) = some (.file [1, 2, 3]) ∧
    ((pwPatch .debug [84] [67] true).run ((pwPatch .debug [84] [67] false).run w).2).2.fs ≠ w.fs := by
  obtain ⟨e1, e2, e3, e3', e4, e5, e6, e6', e7, e8⟩ := FS.ofFiles_two [1, 2, 3] exampleRemove.fileContent
  change exampleChangedFS.entry [65] = 0 at e1
  change exampleChangedFS.entry [67] = 1 at e2
  change exampleChangedFS.node 0 = _ at e4
  change exampleChangedFS.node 1 = _ at e5
  change exampleChangedFS.contentAt [67] = _ at e8
  generalize exampleChangedFS = fs at *
  have hw := exampleRemove_held e8
  refine ⟨⟨fs, [], []⟩, hw, by simp [e1, e4], ?_⟩
  intro h
  have := (C47_exact .debug .debug [84] [67] [65] ⟨fs, [], []⟩ exampleRemove hw rfl false (by simp [e1, e2]) (by simp only [e2]; exact e5)
    [255] (.inr rfl)).1 h
  simp [e1, e4, exampleRemove, Diff.creates] at this

end PwDiff
