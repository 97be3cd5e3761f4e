import Verif.Props.AnyOrder
import Verif.Props.BackAgain

/-! # C152: patches applied and taken back in any order -/

namespace PwDiff

/-- The patches that are applied after one more run: `(k, false)` applies the patch with the number `k`, `(k, true)` takes it back. -/
def doneAfter (done : List Nat) : List (Nat × Bool) → List Nat
  | [] => done
  | (k, false) :: runs => doneAfter (k :: done) runs
  | (k, true) :: runs => doneAfter (done.filter (· != k)) runs

section

variable {T : Type} [DecidableEq T] [Item T] [LawfulItem T]

/-- The runs can be made in this order, when the patches in `done` are applied: a patch is applied only if it is not, and taken back only if
it is; every clump replaces a line that is then in the file only once; and, both times, the clumps stand before the limit of the search in
the file without the patch if they are further down than expected. -/
def LocatedRuns (parts : List (Numbered T)) (last : List T) : List Nat → List (Nat × Bool) → Prop
  | _, [] => True
  | done, (k, false) :: runs => k ∉ done ∧ (∀ c ∈ clumpsNumbered k parts, ChangesUnique (withDone done parts last) c) ∧
      WithinSearch DiffClump.before (withDone done parts last) 0 0 (forNumber k done [] parts) ∧ LocatedRuns parts last (k :: done) runs
  | done, (k, true) :: runs => k ∈ done ∧ (∀ c ∈ clumpsNumbered k parts, ChangesUnique (withDone done parts last) c.swap) ∧
      WithinSearch DiffClump.before (withDone (done.filter (· != k)) parts last) 0 0 (forNumber k (done.filter (· != k)) [] parts) ∧
      LocatedRuns parts last (done.filter (· != k)) runs

/-- The runs are made in this order, no clump fails, none is found to be applied already, and `l` becomes `l'`. -/
def RunsGive (q : Profile) (patch : Nat → List (DiffClump T)) : List (Nat × Bool) → List T → List T → Prop
  | [], l, l' => l' = l
  | (k, back) :: runs, l, l' => ∃ (m : List T) (st : Statistics), (applyInto q (patch k) l back).run = (.ok st, bytesOf m) ∧
      st.failed = 0 ∧ st.alreadyApplied = 0 ∧ st.alreadyAppliedFuzzy = 0 ∧ RunsGive q patch runs m l'

/-- One of them is taken back. -/
theorem number_back (p q : Profile) (before after : List T) (context : Nat) (hctx : context ≤ 255) (k : Nat) (done : List Nat) (hk : k ∈ done)
    (parts : List (Numbered T)) (last : List T) (h : diffClumps p before after context = .ok (clumpsNumbered k parts))
    (hsz : before.length + after.length + (withDone done parts last).length ≤ maxLines)
    (hu : ∀ c ∈ clumpsNumbered k parts, ChangesUnique (withDone done parts last) c.swap)
    (hr : WithinSearch DiffClump.before (withDone (done.filter (· != k)) parts last) 0 0 (forNumber k (done.filter (· != k)) [] parts)) :
    ∃ st : Statistics, (applyInto q (clumpsNumbered k parts) (withDone done parts last) true).run =
      (.ok st, bytesOf (withDone (done.filter (· != k)) parts last)) ∧ st.failed = 0 ∧ st.alreadyApplied = 0 ∧ st.alreadyAppliedFuzzy = 0 := by
  obtain ⟨e1, e2, e3⟩ := forNumber_spec k (done.filter (· != k)) (by simp) [] parts last
  rw [List.nil_append] at e2 e3
  rw [withDone_congr (done := k :: done.filter (· != k)) (done' := done) (by
    intro j
    simp only [List.mem_cons, List.mem_filter, bne_iff_ne, ne_eq]
    by_cases hj : j = k
    · subst hj; simp [hk]
    · simp [hj])] at e3
  revert e1 e2 e3 hr
  generalize forNumber k (done.filter (· != k)) [] parts = own
  generalize afterNumber k (done.filter (· != k)) [] parts last = rest
  intro hr e1 e2 e3
  rw [← e1] at h hu ⊢
  rw [← e2] at hr ⊢
  rw [← e3] at hu hsz ⊢
  obtain ⟨f1, f2, -, -, f5, -⟩ := swap_parts (woven DiffClump.after own rest) own rest 0 0
  have ho' : OnlyThere DiffClump.after (woven DiffClump.after own rest) 0 own := by
    refine f5.1 (onlyThere_of_once (last := rest) (front := []) (by rw [f2]; rfl) rfl fun x hx => ?_)
    obtain ⟨y, hy, rfl⟩ := List.mem_map.1 hx
    exact hu y.2 (List.mem_map_of_mem hy)
  obtain ⟨hd, changes, -, hd2⟩ := diffClumps_full hctx h
  have b1 := (within_both (l := woven DiffClump.before own rest) (l' := woven DiffClump.after own rest) (last := rest) (pos := 0)
    (pos' := 0) (offset := 0) hd2 (fun x hx => hd.ctx x.2 (List.mem_map_of_mem hx)) rfl (by simp) (by simp)).1
  exact ⟨_, (C137_reverse p q before after context hctx own rest h hsz ho').2 (b1.1 hr), rfl, rfl, rfl⟩

/-- Any number of patches, made from whatever files, and a file in which the old lines of the clumps of all of them are, in any order and
with any lines between them. After any number of runs in which they are applied and taken back the file is that in which the old lines of
the clumps of those that are then applied are replaced. -/
theorem C152_runs (q : Profile) (parts : List (Numbered T)) (last : List T) (runs : List (Nat × Bool)) (done : List Nat)
    (hd : ∀ x ∈ runs, ∃ (p : Profile) (before after : List T) (context : Nat), context ≤ 255 ∧
      diffClumps p before after context = .ok (clumpsNumbered x.1 parts) ∧
      before.length + after.length + linesInAll parts last ≤ maxLines)
    (hl : LocatedRuns parts last done runs) :
    RunsGive q (clumpsNumbered · parts) runs (withDone done parts last) (withDone (doneAfter done runs) parts last) := by
  induction runs generalizing done with
  | nil => rfl
  | cons x runs ih =>
    obtain ⟨p, before, after, context, hctx, h, hsz⟩ := hd x List.mem_cons_self
    have hlen := length_withDone done parts last
    obtain ⟨k, back⟩ := x
    cases back
    · obtain ⟨h1, h2, h3, h4⟩ := hl
      obtain ⟨st, s1, s2, s3, s4⟩ := number_step p q before after context hctx k done h1 parts last h (by omega) h2 h3
      exact ⟨_, st, s1, s2, s3, s4, ih (k :: done) (fun x hx => hd x (List.mem_cons_of_mem _ hx)) h4⟩
    · obtain ⟨h1, h2, h3, h4⟩ := hl
      obtain ⟨st, s1, s2, s3, s4⟩ := number_back p q before after context hctx k done h1 parts last h (by omega) h2 h3
      exact ⟨_, st, s1, s2, s3, s4, ih (done.filter (· != k)) (fun x hx => hd x (List.mem_cons_of_mem _ hx)) h4⟩

/-- So if those that are applied at the end are those that were at the beginning, the file is as it was. -/
theorem C152_restores (q : Profile) (parts : List (Numbered T)) (last : List T) (runs : List (Nat × Bool)) (done : List Nat)
    (hd : ∀ x ∈ runs, ∃ (p : Profile) (before after : List T) (context : Nat), context ≤ 255 ∧
      diffClumps p before after context = .ok (clumpsNumbered x.1 parts) ∧
      before.length + after.length + linesInAll parts last ≤ maxLines)
    (hl : LocatedRuns parts last done runs) (hsame : ∀ k, k ∈ doneAfter done runs ↔ k ∈ done) :
    RunsGive q (clumpsNumbered · parts) runs (withDone done parts last) (withDone done parts last) := by
  have := C152_runs q parts last runs done hd hl
  rwa [withDone_congr hsame] at this

end

/-- `pw_patch` is run in this order, each run ends with exit status 0, and `w'` is left of `w`. -/
def RunsLeave (q : Profile) (temp : Path) (patch : Nat → Path) : List (Nat × Bool) → World → World → Prop
  | [], w, w' => w' = w
  | (k, back) :: runs, w, w' => ∃ v, (pwPatch q temp (patch k) back).run w = (.exited 0, v) ∧ RunsLeave q temp patch runs v w'

/-- C152 for `pw_patch`. -/
theorem C152_program (q : Profile) (temp target : Path) (patch : Nat → Path) (d : Nat → TextChangeDiff) (content : Nat → List UInt8)
    (parts : List (Numbered Str)) (t : Str) (hw : NumberedWhole parts) (runs : List (Nat × Bool)) (done : List Nat) (w : World)
    (hf : w.faults = [])
    (hp : ∀ x ∈ runs, w.fs.node (w.fs.entry (patch x.1)) = some (.file (content x.1)) ∧
      Diff.fromReader ⟨content x.1, false⟩ = .ok (.textChange (d x.1)) ∧ (d x.1).beforePath = target ∧
      (d x.1).clumps = clumpsNumbered x.1 parts ∧ w.fs.entry (patch x.1) ≠ w.fs.entry target)
    (hfree : w.fs.node (w.fs.entry temp) = none)
    (hold : w.fs.node (w.fs.entry target) = some (.file (bytesOf (withDone done parts (splitInclusive t)))))
    (hd : ∀ x ∈ runs, ∃ (p : Profile) (before after : List Str) (context : Nat), context ≤ 255 ∧
      diffClumps p before after context = .ok (clumpsNumbered x.1 parts) ∧
      before.length + after.length + linesInAll parts (splitInclusive t) ≤ maxLines)
    (hl : LocatedRuns parts (splitInclusive t) done runs) :
    RunsLeave q temp patch runs w
      { w with fs := w.fs.set (w.fs.entry target) (some (.file (bytesOf (withDone (doneAfter done runs) parts (splitInclusive t))))) } := by
  induction runs generalizing done w with
  | nil =>
    show _ = w
    rw [doneAfter, FS.set_same _ hold]
  | cons x runs ih =>
    obtain ⟨p, before, after, context, hctx, h, hsz⟩ := hd x List.mem_cons_self
    obtain ⟨p1, p2, p3, p4, p5⟩ := hp x List.mem_cons_self
    have hlen := length_withDone done parts (splitInclusive t)
    have hs := split_withDone done parts t hw
    have eu : bytesOf (withDone done parts (splitInclusive t)) = Str.bytes (withDone done parts (splitInclusive t)).flatten := by
      rw [← bytesOf_splitInclusive, hs]
    have hnt : w.fs.entry temp ≠ w.fs.entry target := by
      intro e
      rw [e, hold] at hfree
      cases hfree
    have hold' := hold
    rw [eu] at hold'
    have next : ∀ done', LocatedRuns parts (splitInclusive t) done' runs → ∀ st : Statistics,
        (applyInto q (clumpsNumbered x.1 parts) (withDone done parts (splitInclusive t)) x.2).run =
          (.ok st, bytesOf (withDone done' parts (splitInclusive t))) →
        ∃ v, (pwPatch q temp (patch x.1) x.2).run w = (.exited 0, v) ∧ RunsLeave q temp patch runs v { w with
          fs := w.fs.set (w.fs.entry target) (some (.file (bytesOf (withDone (doneAfter done' runs) parts (splitInclusive t))))) } := by
      intro done' h4 st s1
      rw [← hs, ← p4] at s1
      refine ⟨_, C46_normal q temp (patch x.1) target x.2 w (.textChange (d x.1)) ⟨_, FS.contentAt_of_file p1, p2⟩ (congrArg some p3) hf hfree
        (FS.contentAt_of_file hold') ⟨_, _, rfl, s1⟩, ?_⟩
      have := ih done' { w with
        fs := w.fs.set (w.fs.entry target) (some (.file (bytesOf (withDone done' parts (splitInclusive t))))) } hf
        (fun j hj => by
          obtain ⟨j1, j2, j3, j4, j5⟩ := hp j (List.mem_cons_of_mem _ hj)
          exact ⟨by simp [j5, j1], j2, j3, j4, by simpa using j5⟩)
        (by simp [hnt, hfree]) (by simp) (fun j hj => hd j (List.mem_cons_of_mem _ hj)) h4
      simp only [FS.set_entry, FS.set_set] at this
      exact this
    obtain ⟨k, back⟩ := x
    cases back
    · obtain ⟨h1, h2, h3, h4⟩ := hl
      obtain ⟨st, s1, -⟩ := number_step p q before after context hctx k done h1 parts (splitInclusive t) h (by omega) h2 h3
      exact next _ h4 st s1
    · obtain ⟨h1, h2, h3, h4⟩ := hl
      obtain ⟨st, s1, -⟩ := number_back p q before after context hctx k done h1 parts (splitInclusive t) h (by omega) h2 h3
      exact next _ h4 st s1

/-- The three patches of C151 are applied, the first two are taken back, the one applied first before the other, and the first is applied
again. -/
def sixRuns : List (Nat × Bool) := [(0, false), (1, false), (2, false), (0, true), (1, true), (0, false)]

theorem sixRuns_located : LocatedRuns threeParts (letters ['k', 'l']) [] sixRuns :=
  ⟨by decide, by decide +kernel, ⟨by decide +kernel, by decide +kernel, trivial⟩, by decide, by decide +kernel, ⟨by decide +kernel, trivial⟩,
    by decide, by decide +kernel, ⟨by decide +kernel, trivial⟩,
    by decide, by decide +kernel, ⟨by decide +kernel, by decide +kernel, trivial⟩, by decide, by decide +kernel, ⟨by decide +kernel, trivial⟩,
    by decide, by decide +kernel, ⟨by decide +kernel, by decide +kernel, trivial⟩, trivial⟩

example (q : Profile) : RunsGive q (clumpsNumbered · threeParts) sixRuns (withDone [] threeParts (letters ['k', 'l']))
    (letters ['a', 'N', 'b', 'c', 'X', 'Y', 'e', 'p', 'q', 'r', 'g', 'Z', 'W', 'i', 'j', 's', 'T', 'V', 'u', 'k', 'l']) := by
  have := C152_runs q threeParts (letters ['k', 'l']) sixRuns [] (fun x hx => threeParts_diffs x.1 (by revert x; decide)) sixRuns_located
  have e : withDone (doneAfter [] sixRuns) threeParts (letters ['k', 'l']) =
    letters ['a', 'N', 'b', 'c', 'X', 'Y', 'e', 'p', 'q', 'r', 'g', 'Z', 'W', 'i', 'j', 's', 'T', 'V', 'u', 'k', 'l'] := by decide +kernel
  rwa [e] at this

/-- All three are applied and taken back in the same order. -/
theorem backRuns_located : LocatedRuns threeParts (letters ['k', 'l']) [] [(0, false), (1, false), (2, false), (0, true), (1, true), (2, true)] :=
  ⟨by decide, by decide +kernel, ⟨by decide +kernel, by decide +kernel, trivial⟩, by decide, by decide +kernel, ⟨by decide +kernel, trivial⟩,
    by decide, by decide +kernel, ⟨by decide +kernel, trivial⟩,
    by decide, by decide +kernel, ⟨by decide +kernel, by decide +kernel, trivial⟩, by decide, by decide +kernel, ⟨by decide +kernel, trivial⟩,
    by decide, by decide +kernel, ⟨by decide +kernel, trivial⟩, trivial⟩

example (q : Profile) := C152_restores q threeParts (letters ['k', 'l']) [(0, false), (1, false), (2, false), (0, true), (1, true), (2, true)] []
  (fun x hx => threeParts_diffs x.1 (by revert x; decide)) backRuns_located (by simp [doneAfter])

/-- The situation with the files of C151. -/
example (q : Profile) : ∃ w v : World, RunsLeave q [84] (fun k => [67 + k.toUInt8]) sixRuns w v ∧
    w.fs.contentAt [65] = some ⟨bytesOf (letters ['a', 'N', 'b', 'c', 'd', 'e', 'p', 'q', 'r', 'g', 'h', 'i', 'j', 's', 't', 'u', 'k', 'l']), false⟩ ∧
    v.fs.contentAt [65] =
      some ⟨bytesOf (letters ['a', 'N', 'b', 'c', 'X', 'Y', 'e', 'p', 'q', 'r', 'g', 'Z', 'W', 'i', 'j', 's', 'T', 'V', 'u', 'k', 'l']), false⟩ := by
  obtain ⟨fs, hfree, hold, hfiles⟩ := numbered_files threeParts "k\nl\n".toList threeParts_range
  have et : splitInclusive "k\nl\n".toList = letters ['k', 'l'] := by decide +kernel
  have hk : ∀ x ∈ sixRuns, x.1 ∈ [0, 1, 2] := by decide
  have := C152_program q [84] [65] (fun k => [67 + k.toUInt8]) (fun k => ⟨[65], [66], clumpsNumbered k threeParts⟩)
    (fun k => (Diff.textChange ⟨[65], [66], clumpsNumbered k threeParts⟩).fileContent) threeParts "k\nl\n".toList threeParts_whole sixRuns []
    ⟨fs, [], []⟩ rfl (fun x hx => ⟨(hfiles _ (hk x hx)).1, (hfiles _ (hk x hx)).2.1, rfl, rfl, (hfiles _ (hk x hx)).2.2⟩) hfree hold
    (by rw [et]; exact fun x hx => threeParts_diffs x.1 (hk x hx)) (by rw [et]; exact sixRuns_located)
  rw [et] at this hold
  refine ⟨_, _, this, ?_, ?_⟩
  · rw [FS.contentAt_of_file hold]
    decide +kernel
  · rw [FS.contentAt_of_file (c := bytesOf (withDone (doneAfter [] sixRuns) threeParts (letters ['k', 'l']))) (by simp)]
    decide +kernel

end PwDiff
