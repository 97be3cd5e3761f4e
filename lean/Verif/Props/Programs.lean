import Verif.Proofs.Normal
import Verif.Proofs.JsonPrefix
import Verif.Props.Apply
import Verif.Props.Bytes

/-! # C43–C49: diffs as values and files, `pw_diff` and `pw_patch` -/

namespace PwDiff

open Sys

/-- A file system with some regular files; all other paths name free entries (path `T`, 84, one of
its own). -/
def FS.ofFiles (files : List (Path × List UInt8)) : FS where
  entry path := if path = [84] then files.length + 1 else files.findIdx fun f => f.1 = path
  node i := (files[i]?).map fun f => .file f.2

/-- Two files: what paths `A` (65), `C` (67) and others name, and what is there. -/
theorem FS.ofFiles_two (a c : List UInt8) : let fs := FS.ofFiles [([65], a), ([67], c)]
    fs.entry [65] = 0 ∧ fs.entry [67] = 1 ∧ fs.entry [84] = 3 ∧ fs.entry [80] = 2 ∧ fs.node 0 = some (.file a) ∧ fs.node 1 = some (.file c) ∧
      fs.node 2 = none ∧ fs.node 3 = none ∧ fs.contentAt [65] = some ⟨a, false⟩ ∧ fs.contentAt [67] = some ⟨c, false⟩ :=
  ⟨rfl, rfl, rfl, rfl, rfl, rfl, rfl, rfl, rfl, rfl⟩

/-! ## C43 -/

/-- When nothing goes wrong `Diff::new` delivers a diff unless both files are missing or one is a directory, and the kind
of diff is determined by which of the files exist and whether they are text (see `Made`). -/
theorem C43_variant (p : Profile) (before after : Path) (context : Nat) (w : World) (hf : w.faults = []) :
    ∃ o, Diff.new p before after context w = (.ok o, w) ∧
      (o = none ↔ (w.fs.contentAt before = none ∧ w.fs.contentAt after = none) ∨
        w.fs.contentAt before = some ⟨[], true⟩ ∨ w.fs.contentAt after = some ⟨[], true⟩) ∧
      ∀ d, o = some d → Made p w.fs before after context d :=
  diffNew_spec p before after context hf

theorem not_utf8_ff : ¬ IsUtf8 [255] := by
  rintro ⟨s, h⟩
  cases s with
  | nil => simp [Str.bytes] at h
  | cons c s =>
    unfold Str.bytes at h
    rw [List.flatMap_cons] at h
    unfold String.utf8EncodeChar at h
    simp only at h
    split at h
    · next hc =>
      simp only [List.cons_append, List.cons.injEq] at h
      have h1 := congrArg UInt8.toNat h.1
      simp at h1
      change c.val.toNat % 256 = 255 at h1
      omega
    · split at h
      · simp at h
      · split at h <;> simp at h

/-- A file that is not text, added. -/
example (p : Profile) : Made p (FS.ofFiles [([1], [255])]) [2] [1] 3 (.byteAdd ⟨[2], false, [255]⟩) :=
  ⟨rfl, rfl, rfl, rfl, not_utf8_ff⟩
/-- Two texts. -/
example : Made .debug (FS.ofFiles [([1], Str.bytes ['a']), ([2], Str.bytes ['b', '\n'])]) [1] [2] 3
    (.textChange ⟨[1], [2], [⟨(0, 0), ⟨0, [['a']]⟩, ⟨0, [['b', '\n']]⟩⟩]⟩) :=
  ⟨rfl, rfl, ['a'], ['b', '\n'], rfl, rfl, by decide +kernel⟩

/-! ## C44 -/

/-- Whatever goes wrong: if a file could be read as text, what was recorded is the path and the exact content. -/
theorem C44_lines (path : Path) (w : World) (d : PathAndLines) (w' : World) (h : PathAndLines.new path w = (.ok (some d), w')) :
    d.path = path ∧ ∃ c, w.fs.contentAt path = some ⟨c, false⟩ ∧ d.writeInto.run = (.ok (), c) := by
  have : (PathAndLines.new path).Sat w fun r _ => ∀ d, r = .ok (some d) →
      d.path = path ∧ ∃ c, w.fs.contentAt path = some ⟨c, false⟩ ∧ d.writeInto.run = (.ok (), c) := by
    unfold PathAndLines.new
    apply Sat.bind
    have key : ∀ (r : Reader) fl, (r.fails = false → w.fs.contentAt path = some r) →
        (do let some lines ← ofOutcome (readText r) | return none
            return some ⟨path, lines⟩ : Sys (Option PathAndLines)).Sat { w with faults := fl } fun r _ => ∀ d, r = .ok (some d) →
      d.path = path ∧ ∃ c, w.fs.contentAt path = some ⟨c, false⟩ ∧ d.writeInto.run = (.ok (), c) := by
      intro r fl hr
      rcases readText_total r with e | ⟨ls, e⟩
      · rw [e]
        intro d h
        cases h
      · rw [e]
        intro d h
        cases h
        obtain ⟨h1, s, h2, h3⟩ := (readText_eq_ok_iff r ls).1 e
        refine ⟨rfl, s.bytes, ?_, ?_⟩
        · rw [hr h1, h2]
          cases r
          simp_all
        · unfold PathAndLines.writeInto
          rw [writeStrs_eq, flatMap_bytes, h3, flatten_splitInclusive, WM.writeAll_eq_emit, WM.run_emit]
    apply sat_openFile
    · intro fl _ d h
      cases h
    · intro fl d h
      cases h
    · intro fl r hr
      exact key r fl (by simp [hr])
    · intro fl r hr
      exact key r fl (fun _ => hr)
  unfold Sat at this
  rw [h] at this
  exact this d rfl

/-- The same for bytes. -/
theorem C44_bytes (path : Path) (w : World) (d : PathAndBytes) (w' : World) (h : PathAndBytes.new path w = (.ok (some d), w')) :
    d.path = path ∧ d.compressed = false ∧ ∃ c, w.fs.contentAt path = some ⟨c, false⟩ ∧ d.writeInto.run = (.ok (), c) := by
  have : (PathAndBytes.new path).Sat w fun r _ => ∀ d, r = .ok (some d) →
      d.path = path ∧ d.compressed = false ∧ ∃ c, w.fs.contentAt path = some ⟨c, false⟩ ∧ d.writeInto.run = (.ok (), c) := by
    unfold PathAndBytes.new
    apply Sat.bind
    have key : ∀ (r : Reader) fl, (r.fails = false → w.fs.contentAt path = some r) →
        (do let some bytes ← ofOutcome (readBytes r) | return none
            return some ⟨path, false, bytes⟩ : Sys (Option PathAndBytes)).Sat { w with faults := fl } fun r _ =>
          ∀ d, r = .ok (some d) →
            d.path = path ∧ d.compressed = false ∧ ∃ c, w.fs.contentAt path = some ⟨c, false⟩ ∧ d.writeInto.run = (.ok (), c) := by
      intro r fl hr d h
      obtain ⟨data, fails⟩ := r
      cases fails with
      | true => cases h
      | false =>
        cases h
        refine ⟨rfl, rfl, data, hr rfl, ?_⟩
        unfold PathAndBytes.writeInto
        rw [WM.writeAll_eq_emit, WM.run_emit]
    apply sat_openFile
    · intro fl _ d h
      cases h
    · intro fl d h
      cases h
    · intro fl r hr
      exact key r fl (by simp [hr])
    · intro fl r hr
      exact key r fl (fun _ => hr)
  unfold Sat at this
  rw [h] at this
  exact this d rfl

/-- Recording another path changes nothing else. -/
theorem C44_changePath (d : PathAndLines) (e : PathAndBytes) (path : Path) :
    (d.changePath path).path = path ∧ (d.changePath path).writeInto = d.writeInto ∧
    (e.changePath path).path = path ∧ (e.changePath path).writeInto = e.writeInto ∧
    (e.changePath path).compressed = e.compressed := ⟨rfl, rfl, rfl, rfl, rfl⟩

example : PathAndBytes.new [1] ⟨FS.ofFiles [([1], [255, 0])], [], []⟩ =
    (.ok (some ⟨[1], false, [255, 0]⟩), ⟨FS.ofFiles [([1], [255, 0])], [], []⟩) := rfl
/-- A read error in the middle of the file is not taken for its end. -/
example : (PathAndBytes.new [1] ⟨FS.ofFiles [([1], [255, 0])], [.fail 1], []⟩).1 = .ok none := by rfl

/-! ## C45 -/

/-- A diff whose values fit their Rust types and whose paths are UTF-8 is written, and what was written is read as the
same diff. -/
theorem C45_roundTrip (d : Diff) (hd : d.InRange) (hp : ∀ path ∈ d.paths, IsUtf8 path) :
    ∃ out, d.toWriter.run = (.ok (), out) ∧ Diff.fromReader ⟨out, false⟩ = .ok d := by
  obtain ⟨h1, h2⟩ := toWriter_fromReader d hd hp
  exact ⟨_, by rw [h1, WM.run_emit], h2⟩

/-- Writing fails exactly if a path is not UTF-8. -/
theorem C45_fails (d : Diff) :
    (d.toWriter.run.1 = .ok () ↔ ∀ path ∈ d.paths, IsUtf8 path) ∧
    (d.toWriter.run.1 = .ioErr ↔ ¬ ∀ path ∈ d.paths, IsUtf8 path) := by
  obtain ⟨out, r, h1, h2⟩ := ends_toWriter d
  rw [h1, WM.run_emit]
  rcases h2 with ⟨h2, rfl⟩ | ⟨h2, rfl⟩
  · exact ⟨⟨fun _ => h2, fun _ => rfl⟩, ⟨(fun h => by cases h), fun h => absurd h2 h⟩⟩
  · exact ⟨⟨(fun h => by cases h), fun h => absurd h h2⟩, ⟨fun _ => h2, fun _ => rfl⟩⟩

/-- Truncated or failing input is never mistaken for a diff. -/
theorem C45_readError (data : List UInt8) : Diff.fromReader ⟨data, true⟩ = .ioErr := rfl

example : (Diff.textChange ⟨[], [], [⟨(0, 1), ⟨7, [['a', '"', '\\', '\n'], ['c']]⟩, ⟨8, [['é']]⟩⟩]⟩).InRange := by
  intro c hc
  simp only [List.mem_singleton] at hc
  subst hc
  simp [DiffClump.InRange, wordSize]
example : ∀ path ∈ (Diff.textRemove ⟨Str.bytes ['é', ' '], []⟩).paths, IsUtf8 path := by
  intro path h
  simp only [Diff.paths, List.mem_singleton] at h
  exact ⟨_, h.symm⟩
example : ¬ ∀ path ∈ (Diff.textRemove ⟨[255], []⟩).paths, IsUtf8 path := fun h => not_utf8_ff (h _ (by simp [Diff.paths]))

/-! ## C46 -/

/-- The file a change diff is applied to. -/
def Diff.changed : Diff → Option Path
  | .textChange d => some d.beforePath
  | .byteChange d => some d.beforePath
  | _ => none

/-- Applying the change diff to a file with content `old` gives `new`. -/
def PatchedContent (p : Profile) (rev : Bool) : Diff → List UInt8 → List UInt8 → Prop
  | .textChange d, old, new => ∃ (s : Str) (st : Statistics),
      s.bytes = old ∧ (applyInto p d.clumps (splitInclusive s) rev).run = (.ok st, new)
  | .byteChange d, old, new => (byteApplyInto p d.clumps old rev).run = (.ok (), new)
  | _, _, _ => False

/-- The patch file holds the diff. -/
def HoldsDiff (fs : FS) (patch : Path) (d : Diff) : Prop := ∃ r, fs.contentAt patch = some r ∧ Diff.fromReader r = .ok d

theorem pwPatch_sat (p : Profile) (temp patch : Path) (rev : Bool) {w : World} {d : Diff} (hp : HoldsDiff w.fs patch d)
    {Q : Except Ended Unit → World → Prop} (h1 : ∀ fl, (applyDiff p temp rev d).Sat { w with faults := fl } Q)
    (h2 : ∀ fl, Q (.error (.exited 1)) { w with faults := fl }) (h3 : ∀ fl, Q (.error .killed) { w with faults := fl }) :
    (pwPatch p temp patch rev).Sat w Q := by
  obtain ⟨r, hr, hd⟩ := hp
  unfold pwPatch
  apply Sat.bind
  apply sat_openFile
  · intro fl hn
    rw [hr] at hn
    cases hn
  · exact h3
  · intro fl r' hr'
    obtain ⟨data, fails⟩ := r'
    obtain rfl : fails = true := hr'
    exact h2 fl
  · intro fl r' hr'
    obtain rfl := Option.some.inj (hr.symm.trans hr')
    simp only
    rw [hd]
    exact h1 fl

/-- Whatever operation fails, wherever the process is killed: no file but the target and the temporary one is touched,
nothing that existed before is touched except the target, and the target is either untouched (and then the exit status is
not 0) or completely replaced by the patched content. -/
theorem C46_atomic (p : Profile) (temp patch target : Path) (rev : Bool) (w : World) (d : Diff) (hp : HoldsDiff w.fs patch d)
    (ht : d.changed = some target) :
    let (ended, w') := (pwPatch p temp patch rev).run w
    w'.fs.entry = w.fs.entry ∧
    (∀ i, i ≠ w.fs.entry target → i ≠ w.fs.entry temp → w'.fs.node i = w.fs.node i) ∧
    (∀ i, i ≠ w.fs.entry target → w.fs.node i ≠ none → w'.fs.node i = w.fs.node i) ∧
    ((w'.fs.node (w.fs.entry target) = w.fs.node (w.fs.entry target) ∧ ended ≠ .exited 0) ∨
      ((ended = .exited 0 ∨ ended = .killed) ∧ ∃ old new, w.fs.contentAt target = some ⟨old, false⟩ ∧
        PatchedContent p rev d old new ∧ w'.fs.node (w.fs.entry target) = some (.file new))) := by
  have main : (pwPatch p temp patch rev).Sat w fun r w' =>
      Patched w.fs (w.fs.entry target) (w.fs.entry temp) (fun new => ∃ old, w.fs.contentAt target = some ⟨old, false⟩ ∧
        PatchedContent p rev d old new) r w'.fs := by
    refine pwPatch_sat p temp patch rev hp ?_ ?_ ?_
    · intro fl
      cases d with
      | textChange d =>
        obtain rfl := Option.some.inj ht
        refine (patchFile_spec temp d.beforePath readText _ { w with faults := fl } ?_ ?_).mono fun r w' h => h.weaken ?_
        · intro r a h
          exact ((readText_eq_ok_iff r a).1 h).1
        · intro a
          exact norm_applyInto ..
        · rintro out ⟨rd, a, b, e1, e2, e3⟩
          obtain ⟨h1, s, h2, rfl⟩ := (readText_eq_ok_iff rd a).1 e2
          refine ⟨rd.data, ?_, s, b, h2, e3⟩
          rw [e1]
          cases rd
          simp_all
      | byteChange d =>
        obtain rfl := Option.some.inj ht
        have hrb : ∀ (r : Reader) a, readBytes r = .ok a → r = ⟨a, false⟩ := by
          rintro ⟨data, fails⟩ a h
          cases fails with
          | true => cases h
          | false => cases h; rfl
        refine (patchFile_spec temp d.beforePath readBytes _ { w with faults := fl } ?_ ?_).mono fun r w' h => h.weaken ?_
        · intro r a h
          rw [hrb r a h]
        · intro a
          exact norm_byteApplyInto ..
        · rintro out ⟨rd, a, b, e1, e2, e3⟩
          rw [hrb rd a e2] at e1
          exact ⟨a, e1, e3⟩
      | textAdd d => cases ht
      | textRemove d => cases ht
      | byteAdd d => cases ht
      | byteRemove d => cases ht
    · intro fl
      exact Patched.refl (by simp [NotDone])
    · intro fl
      exact Patched.refl (by simp [NotDone])
  refine run_eq (Q := fun ended w' => w'.fs.entry = w.fs.entry ∧
    (∀ i, i ≠ w.fs.entry target → i ≠ w.fs.entry temp → w'.fs.node i = w.fs.node i) ∧
    (∀ i, i ≠ w.fs.entry target → w.fs.node i ≠ none → w'.fs.node i = w.fs.node i) ∧
    ((w'.fs.node (w.fs.entry target) = w.fs.node (w.fs.entry target) ∧ ended ≠ .exited 0) ∨
      ((ended = .exited 0 ∨ ended = .killed) ∧ ∃ old new, w.fs.contentAt target = some ⟨old, false⟩ ∧
        PatchedContent p rev d old new ∧ w'.fs.node (w.fs.entry target) = some (.file new)))) (main.mono ?_)
  rintro r w' h
  cases r with
  | ok _ =>
    refine ⟨h.entry, h.other, h.existing, .inr ⟨.inl rfl, ?_⟩⟩
    rcases h.target with ⟨-, h1, -⟩ | ⟨-, new, ⟨old, e1, e2⟩, e3⟩
    · exact absurd rfl h1
    · exact ⟨old, new, e1, e2, e3⟩
  | error e =>
    refine ⟨h.entry, h.other, h.existing, ?_⟩
    rcases h.target with ⟨h1, h2⟩ | ⟨h1, new, ⟨old, e1, e2⟩, e3⟩
    · refine .inl ⟨h1, ?_⟩
      rintro rfl
      exact h2.2 rfl
    · refine .inr ⟨?_, old, new, e1, e2, e3⟩
      rcases h1 with h1 | h1
      · cases h1
      · cases h1
        exact .inr rfl

/-- If nothing goes wrong and the diff can be applied, the exit status is 0 and only the target changes. -/
theorem C46_normal (p : Profile) (temp patch target : Path) (rev : Bool) (w : World) (d : Diff) (hp : HoldsDiff w.fs patch d)
    (ht : d.changed = some target) (hf : w.faults = []) (hfree : w.fs.node (w.fs.entry temp) = none) {old new : List UInt8}
    (hold : w.fs.contentAt target = some ⟨old, false⟩) (hnew : PatchedContent p rev d old new) :
    (pwPatch p temp patch rev).run w =
      (.exited 0, { w with fs := w.fs.set (w.fs.entry target) (some (.file new)) }) := by
  obtain ⟨r, hr, hd⟩ := hp
  have hdir := FS.entry_not_dir hold
  have : pwPatch p temp patch rev w = (.ok (), { w with fs := w.fs.set (w.fs.entry target) (some (.file new)) }) := by
    rw [pwPatch_eq hf p temp patch rev hr hd]
    cases d with
    | textChange d =>
      obtain rfl := Option.some.inj ht
      obtain ⟨s, st, rfl, h2⟩ := hnew
      exact patchFile_eq hf hold (readText_bytes s) h2 hfree hdir
    | byteChange d =>
      obtain rfl := Option.some.inj ht
      exact patchFile_eq hf hold (readBytes_file old) hnew hfree hdir
    | textAdd d => cases ht
    | textRemove d => cases ht
    | byteAdd d => cases ht
    | byteRemove d => cases ht
  unfold Sys.run
  rw [this]

/-- A diff as it stands in a patch file. -/
def Diff.fileContent (d : Diff) : List UInt8 := (Json.text 0 (Json.ofDiff d)).bytes

theorem holdsDiff_of_file {fs : FS} {patch : Path} {d : Diff} (hd : d.InRange) (hp : ∀ path ∈ d.paths, IsUtf8 path)
    (h : fs.contentAt patch = some ⟨d.fileContent, false⟩) : HoldsDiff fs patch d :=
  ⟨_, h, (toWriter_fromReader d hd hp).2⟩

/-- A patch file for a file of three bytes. -/
def exampleDiff : Diff := .byteChange ⟨[65], [66], false, [⟨(0, 0), ⟨1, [2]⟩, ⟨1, [7, 8]⟩⟩]⟩
def exampleFS : FS := FS.ofFiles [([65], [1, 2, 3]), ([67], exampleDiff.fileContent)]

theorem exampleDiff_held : HoldsDiff exampleFS [67] exampleDiff := by
  refine holdsDiff_of_file ?_ ?_ rfl
  · intro c hc
    simp only [List.mem_singleton] at hc
    subst hc
    simp [DiffClump.InRange, wordSize]
  · intro path h
    simp only [exampleDiff, Diff.paths, List.mem_cons, List.not_mem_nil, or_false] at h
    rcases h with rfl | rfl
    · exact ⟨['A'], by decide⟩
    · exact ⟨['B'], by decide⟩

example : PatchedContent .release false exampleDiff [1, 2, 3] [1, 7, 8, 3] := by
  show (byteApplyInto _ _ _ _).run = _
  decide +kernel
/-- The disk is full after two bytes: exit status 1, the target is untouched, the temporary file stays. -/
example : let r := (applyDiff .release [84] false exampleDiff).run ⟨exampleFS, [.none, .none, .none, .fail 2], []⟩
    r.1 = .exited 1 ∧ r.2.fs.node 0 = some (.file [1, 2, 3]) ∧ r.2.fs.node (exampleFS.entry [84]) = some (.file [1, 7]) := by
  decide +kernel

theorem fromReader_total (r : Reader) (hr : ∀ d, Diff.fromReader r ≠ .ok d) : Diff.fromReader r = .ioErr := by
  revert hr
  unfold Diff.fromReader
  intro hr
  split
  · rfl
  · split
    · rfl
    · split
      · rfl
      · split
        · rfl
        · next h1 _ _ h2 _ _ h3 _ d h4 =>
          exfalso
          apply hr d
          simp only [h1, h2, h3, h4, if_false, Bool.false_eq_true]

/-- Whatever goes wrong with a patch file that cannot be read as a diff: the exit status is 1 (unless the process is killed)
and nothing changes. -/
theorem C46_unreadable (p : Profile) (temp patch : Path) (rev : Bool) (w : World)
    (h : ∀ r, w.fs.contentAt patch = some r → ∀ d, Diff.fromReader r ≠ .ok d) :
    let (ended, w') := (pwPatch p temp patch rev).run w
    (ended = .exited 1 ∨ ended = .killed) ∧ w'.fs = w.fs ∧ w'.stdout = w.stdout := by
  have total := fromReader_total
  have main : (pwPatch p temp patch rev).Sat w fun r w' =>
      (r = .error (.exited 1) ∨ r = .error .killed) ∧ w'.fs = w.fs ∧ w'.stdout = w.stdout := by
    unfold pwPatch
    apply Sat.bind
    apply sat_openFile
    · intro fl hn
      exact ⟨.inl rfl, rfl, rfl⟩
    · intro fl
      exact ⟨.inr rfl, rfl, rfl⟩
    · intro fl r' hr'
      obtain ⟨data, fails⟩ := r'
      obtain rfl : fails = true := hr'
      exact ⟨.inl rfl, rfl, rfl⟩
    · intro fl r' hr'
      simp only
      rw [total r' (h r' hr')]
      exact ⟨.inl rfl, rfl, rfl⟩
  refine run_eq (Q := fun ended w' => (ended = .exited 1 ∨ ended = .killed) ∧ w'.fs = w.fs ∧ w'.stdout = w.stdout)
    (main.mono ?_)
  rintro r w' ⟨h1, h2⟩
  rcases h1 with rfl | rfl
  · exact ⟨.inl rfl, h2⟩
  · exact ⟨.inr rfl, h2⟩

/-! ## C47 -/

/-- The file the program is asked to create, and its content. -/
def Diff.creates (rev : Bool) : Diff → Option (Path × List UInt8)
  | .textAdd d => if rev then none else some (d.path, d.lines.flatMap Str.bytes)
  | .textRemove d => if rev then some (d.path, d.lines.flatMap Str.bytes) else none
  | .byteAdd d => if rev then none else some (d.path, d.bytes)
  | .byteRemove d => if rev then some (d.path, d.bytes) else none
  | _ => none

/-- The file the program is asked to remove. -/
def Diff.deletes (rev : Bool) : Diff → Option Path
  | .textAdd d => if rev then some d.path else none
  | .textRemove d => if rev then none else some d.path
  | .byteAdd d => if rev then some d.path else none
  | .byteRemove d => if rev then none else some d.path
  | _ => none

theorem applyDiff_creates (p : Profile) (temp : Path) {rev : Bool} {d : Diff} {path : Path} {content : List UInt8}
    (h : d.creates rev = some (path, content)) : applyDiff p temp rev d = addFile path (WM.emit content (.ok ())) := by
  have hl : ∀ e : PathAndLines, e.writeInto = WM.emit (e.lines.flatMap Str.bytes) (.ok ()) := fun e => by
    unfold PathAndLines.writeInto
    rw [writeStrs_eq, WM.writeAll_eq_emit]
  have hb : ∀ e : PathAndBytes, e.writeInto = WM.emit e.bytes (.ok ()) := fun e => by
    unfold PathAndBytes.writeInto
    rw [WM.writeAll_eq_emit]
  cases d <;> cases rev <;> simp only [Diff.creates, applyDiff, if_true, Bool.false_eq_true, if_false] at h ⊢ <;>
    first
    | (cases h; done)
    | (cases h; first | rw [hl] | rw [hb])

theorem applyDiff_deletes (p : Profile) (temp : Path) {rev : Bool} {d : Diff} {path : Path} (h : d.deletes rev = some path) :
    applyDiff p temp rev d = deleteFile path := by
  cases d <;> cases rev <;> simp only [Diff.deletes, applyDiff, if_true, Bool.false_eq_true, if_false] at h ⊢ <;>
    first
    | (cases h; done)
    | (cases h; rfl)

/-- Whatever goes wrong: creating touches no other entry, never changes anything that exists (file, directory or link),
and what it creates is an initial part of the recorded content. -/
theorem C47_create (p : Profile) (temp patch path : Path) (rev : Bool) (w : World) (d : Diff) (hp : HoldsDiff w.fs patch d)
    (content : List UInt8) (hc : d.creates rev = some (path, content)) :
    let (_, w') := (pwPatch p temp patch rev).run w
    w'.fs.entry = w.fs.entry ∧ (∀ i, i ≠ w.fs.entry path → w'.fs.node i = w.fs.node i) ∧
    (w.fs.node (w.fs.entry path) ≠ none → w'.fs.node (w.fs.entry path) = w.fs.node (w.fs.entry path)) ∧
    (w'.fs.node (w.fs.entry path) = w.fs.node (w.fs.entry path) ∨
      ∃ n, w'.fs.node (w.fs.entry path) = some (.file (content.take n))) := by
  have main : (pwPatch p temp patch rev).Sat w fun _ w' =>
      w'.fs.entry = w.fs.entry ∧ (∀ i, i ≠ w.fs.entry path → w'.fs.node i = w.fs.node i) ∧
      (w.fs.node (w.fs.entry path) ≠ none → w'.fs.node (w.fs.entry path) = w.fs.node (w.fs.entry path)) ∧
      (w'.fs.node (w.fs.entry path) = w.fs.node (w.fs.entry path) ∨
        ∃ n, w'.fs.node (w.fs.entry path) = some (.file (content.take n))) := by
    refine pwPatch_sat p temp patch rev hp ?_ ?_ ?_
    · intro fl
      rw [applyDiff_creates p temp hc]
      unfold addFile
      apply Sat.bind
      apply sat_createNew
      · intro fl2
        exact ⟨rfl, fun _ _ => rfl, fun _ => rfl, .inl rfl⟩
      · intro fl2
        exact ⟨rfl, fun _ _ => rfl, fun _ => rfl, .inl rfl⟩
      · intro fl2 hn
        have done : ∀ (n : Nat) (w' : World), w'.fs = (w.fs.set (w.fs.entry path) (some (.file []))).set (w.fs.entry path)
            (some (.file (content.take n))) → w'.fs.entry = w.fs.entry ∧ (∀ i, i ≠ w.fs.entry path → w'.fs.node i = w.fs.node i) ∧
            (w.fs.node (w.fs.entry path) ≠ none → w'.fs.node (w.fs.entry path) = w.fs.node (w.fs.entry path)) ∧
            (w'.fs.node (w.fs.entry path) = w.fs.node (w.fs.entry path) ∨
              ∃ n, w'.fs.node (w.fs.entry path) = some (.file (content.take n))) := by
          intro n w' hw
          rw [hw]
          refine ⟨rfl, ?_, fun h => absurd hn h, .inr ⟨n, by simp⟩⟩
          intro i hi
          simp [hi]
        apply Sat.bind
        apply sat_writeFile
        · intro fl3
          exact sat_pure (done content.length _ (by rw [WM.run_emit, List.take_length]))
        · intro fl3 n
          refine sat_pure (done n _ ?_)
          rw [WM.emit_apply]
          simp only
          split
          · next hle => simp [List.take_of_length_le hle]
          · simp
        · intro fl3 n
          exact done n _ (by rw [WM.run_emit])
    · intro fl
      exact ⟨rfl, fun _ _ => rfl, fun _ => rfl, .inl rfl⟩
    · intro fl
      exact ⟨rfl, fun _ _ => rfl, fun _ => rfl, .inl rfl⟩
  refine run_eq (Q := fun _ w' => w'.fs.entry = w.fs.entry ∧ (∀ i, i ≠ w.fs.entry path → w'.fs.node i = w.fs.node i) ∧
      (w.fs.node (w.fs.entry path) ≠ none → w'.fs.node (w.fs.entry path) = w.fs.node (w.fs.entry path)) ∧
      (w'.fs.node (w.fs.entry path) = w.fs.node (w.fs.entry path) ∨
        ∃ n, w'.fs.node (w.fs.entry path) = some (.file (content.take n)))) (main.mono ?_)
  intro r w' h
  cases r <;> exact h

/-- Whatever goes wrong: removing touches no other entry; the file is gone if the exit status is 0 and untouched if it is
another one. -/
theorem C47_delete (p : Profile) (temp patch path : Path) (rev : Bool) (w : World) (d : Diff) (hp : HoldsDiff w.fs patch d)
    (hc : d.deletes rev = some path) :
    let (ended, w') := (pwPatch p temp patch rev).run w
    w'.fs.entry = w.fs.entry ∧ (∀ i, i ≠ w.fs.entry path → w'.fs.node i = w.fs.node i) ∧
    ((ended = .exited 0 ∧ w'.fs.node (w.fs.entry path) = none) ∨
      ((ended = .exited 1 ∨ ended = .killed) ∧ w'.fs.node (w.fs.entry path) = w.fs.node (w.fs.entry path))) := by
  have main : (pwPatch p temp patch rev).Sat w fun r w' =>
      w'.fs.entry = w.fs.entry ∧ (∀ i, i ≠ w.fs.entry path → w'.fs.node i = w.fs.node i) ∧
      ((r = .ok () ∧ w'.fs.node (w.fs.entry path) = none) ∨
        ((r = .error (.exited 1) ∨ r = .error .killed) ∧ w'.fs.node (w.fs.entry path) = w.fs.node (w.fs.entry path))) := by
    refine pwPatch_sat p temp patch rev hp ?_ ?_ ?_
    · intro fl
      rw [applyDiff_deletes p temp hc]
      unfold deleteFile
      apply Sat.bind
      unfold removeFile
      apply sat_operation
      · intro fl2
        by_cases h : w.fs.node (w.fs.entry path) = none ∨ w.fs.node (w.fs.entry path) = some .dir
        · simp only [h, if_true]
          exact ⟨rfl, fun _ _ => rfl, .inr ⟨.inl rfl, rfl⟩⟩
        · simp only [h, if_false]
          refine ⟨rfl, ?_, .inl ⟨rfl, ?_⟩⟩
          · intro i hi
            show (w.fs.set _ _).node i = _
            simp [hi]
          · show (w.fs.set _ _).node _ = _
            simp
      · intro fl2 n
        exact ⟨rfl, fun _ _ => rfl, .inr ⟨.inl rfl, rfl⟩⟩
      · intro fl2 n
        exact ⟨rfl, fun _ _ => rfl, .inr ⟨.inr rfl, rfl⟩⟩
    · intro fl
      exact ⟨rfl, fun _ _ => rfl, .inr ⟨.inl rfl, rfl⟩⟩
    · intro fl
      exact ⟨rfl, fun _ _ => rfl, .inr ⟨.inr rfl, rfl⟩⟩
  refine run_eq (Q := fun ended w' => w'.fs.entry = w.fs.entry ∧ (∀ i, i ≠ w.fs.entry path → w'.fs.node i = w.fs.node i) ∧
    ((ended = .exited 0 ∧ w'.fs.node (w.fs.entry path) = none) ∨
      ((ended = .exited 1 ∨ ended = .killed) ∧ w'.fs.node (w.fs.entry path) = w.fs.node (w.fs.entry path)))) (main.mono ?_)
  rintro r w' ⟨h1, h2, h3⟩
  rcases h3 with ⟨rfl, h⟩ | ⟨rfl | rfl, h⟩
  · exact ⟨h1, h2, .inl ⟨rfl, h⟩⟩
  · exact ⟨h1, h2, .inr ⟨.inl rfl, h⟩⟩
  · exact ⟨h1, h2, .inr ⟨.inr rfl, h⟩⟩

theorem run_of_ok {m : Sys Unit} {w w' : World} (h : m w = (.ok (), w')) : m.run w = (.exited 0, w') := by
  unfold Sys.run
  rw [h]

/-- When nothing goes wrong, a file that does not exist is created with the recorded content, and one that exists is
removed. -/
theorem C47_normal (p : Profile) (temp patch path : Path) (rev : Bool) (w : World) (d : Diff) (hp : HoldsDiff w.fs patch d)
    (hf : w.faults = []) :
    (∀ content, d.creates rev = some (path, content) → w.fs.node (w.fs.entry path) = none →
      (pwPatch p temp patch rev).run w = (.exited 0, { w with fs := w.fs.set (w.fs.entry path) (some (.file content)) })) ∧
    (d.deletes rev = some path → w.fs.node (w.fs.entry path) ≠ none → w.fs.node (w.fs.entry path) ≠ some .dir →
      (pwPatch p temp patch rev).run w = (.exited 0, { w with fs := w.fs.set (w.fs.entry path) none })) := by
  obtain ⟨r, hr, hd⟩ := hp
  constructor
  · intro content hc hn
    apply run_of_ok
    rw [pwPatch_eq hf p temp patch rev hr hd, applyDiff_creates p temp hc, addFile_eq hf _ hn, WM.run_emit]
  · intro hc hn hdir
    apply run_of_ok
    rw [pwPatch_eq hf p temp patch rev hr hd, applyDiff_deletes p temp hc, deleteFile_eq hf hn hdir]

/-- Full statement of the last part of C47: after a forward run with exit status 0 a reverse run restores the state. -/
def C47_statement : Prop :=
  ∀ (p : Profile) (temp patch path : Path) (w : World) (d : Diff), HoldsDiff w.fs patch d → w.faults = [] →
    (d.creates false).map (·.1) = some path ∨ d.deletes false = some path → w.fs.entry path ≠ w.fs.entry patch →
    ((pwPatch p temp patch false).run w).1 = .exited 0 →
    ((pwPatch p temp patch true).run ((pwPatch p temp patch false).run w).2).2.fs = w.fs

/-- A diff that removes a file. -/
def exampleRemove : Diff := .byteRemove ⟨[65], false, [255]⟩
/-- The file to be removed has another content. -/
def exampleChangedFS : FS := FS.ofFiles [([65], [1, 2, 3]), ([67], exampleRemove.fileContent)]

theorem exampleRemove_held {fs : FS} (h : fs.contentAt [67] = some ⟨exampleRemove.fileContent, false⟩) :
    HoldsDiff fs [67] exampleRemove := by
  refine holdsDiff_of_file trivial ?_ h
  intro path h
  simp only [exampleRemove, Diff.paths, List.mem_singleton] at h
  subst h
  exact ⟨['A'], by decide⟩

/-- It fails: a file is removed whatever it contains, and the reverse run puts the recorded content in its place. -/
theorem C47_refuted : ¬ C47_statement := by
  intro h
  obtain ⟨e1, e2, e3, e3', e4, e5, e6, e6', e7, e8⟩ := FS.ofFiles_two [1, 2, 3] exampleRemove.fileContent
  change exampleChangedFS.entry [65] = 0 at e1
  change exampleChangedFS.entry [67] = 1 at e2
  change exampleChangedFS.node 0 = _ at e4
  change exampleChangedFS.node 1 = _ at e5
  change exampleChangedFS.contentAt [67] = _ at e8
  generalize exampleChangedFS = fs at *
  have hw := exampleRemove_held e8
  have h1 := (C47_normal .debug [84] [67] [65] false ⟨fs, [], []⟩ exampleRemove hw rfl).2 rfl
    (by simp [e1, e4]) (by simp [e1, e4])
  have h2 := h .debug [84] [67] [65] ⟨fs, [], []⟩ exampleRemove hw rfl (.inr rfl) (by simp [e1, e2]) (by rw [h1])
  rw [h1] at h2
  have h3 := (C47_normal .debug [84] [67] [65] true ⟨fs.set (fs.entry [65]) none, [], []⟩
    exampleRemove (exampleRemove_held (FS.contentAt_of_file (by simp [e1, e2, e5]))) rfl).1 [255] rfl (by simp)
  rw [h3] at h2
  have := congrArg (fun fs => fs.node 0) h2
  simp [e1, e4] at this

/-- What holds: if the file to be created does not exist, or the file to be removed has the recorded content, a forward run
followed by a reverse run restores the state exactly. -/
theorem C47_undo_partial (p : Profile) (temp patch path : Path) (w : World) (d : Diff) (hp : HoldsDiff w.fs patch d)
    (hf : w.faults = []) (rev : Bool) (hne : w.fs.entry path ≠ w.fs.entry patch)
    {c : List UInt8} (hpatch : w.fs.node (w.fs.entry patch) = some (.file c))
    (h : (∃ content, d.creates rev = some (path, content) ∧ w.fs.node (w.fs.entry path) = none) ∨
      (∃ content, d.creates (!rev) = some (path, content) ∧ w.fs.node (w.fs.entry path) = some (.file content))) :
    (pwPatch p temp patch (!rev)).run ((pwPatch p temp patch rev).run w).2 = (.exited 0, w) := by
  obtain ⟨r, hr, hd⟩ := hp
  have held : ∀ x, HoldsDiff (w.fs.set (w.fs.entry path) x) patch d := by
    intro x
    refine ⟨r, ?_, hd⟩
    rw [FS.contentAt_of_file hpatch] at hr
    rw [FS.contentAt_of_file (c := c) (by simp [Ne.symm hne, hpatch]), hr]
  have inv : ∀ rev content, d.creates rev = some (path, content) → d.deletes (!rev) = some path := by
    intro rev content hc
    cases d <;> cases rev <;> simp [Diff.creates, Diff.deletes] at hc ⊢ <;> exact hc.1
  rcases h with ⟨content, h1, h2⟩ | ⟨content, h1, h2⟩
  · rw [(C47_normal p temp patch path rev w d ⟨r, hr, hd⟩ hf).1 content h1 h2]
    rw [(C47_normal p temp patch path (!rev) ⟨w.fs.set (w.fs.entry path) (some (.file content)), w.faults, w.stdout⟩ d (held _) hf).2
      (inv _ _ h1) (by simp) (by simp)]
    simp only [FS.set_entry, FS.set_set, FS.set_same w.fs h2]
  · have h3 := inv _ _ h1
    rw [Bool.not_not] at h3
    rw [(C47_normal p temp patch path rev w d ⟨r, hr, hd⟩ hf).2 h3 (by simp [h2]) (by simp [h2])]
    rw [(C47_normal p temp patch path (!rev) ⟨w.fs.set (w.fs.entry path) none, w.faults, w.stdout⟩ d (held _) hf).1 content h1 (by simp)]
    simp only [FS.set_entry, FS.set_set, FS.set_same w.fs h2]

example : exampleRemove.creates true = some ([65], [255]) ∧
    (FS.ofFiles [([65], [255]), ([67], exampleRemove.fileContent)]).node 0 = some (.file [255]) :=
  ⟨rfl, (FS.ofFiles_two _ _).2.2.2.2.1⟩

/-! ## C48 -/

/-- The requested change was made: the file was patched without a failed clump, created, or removed. -/
def ChangeMade (p : Profile) (rev : Bool) (d : Diff) (fs fs' : FS) : Prop :=
  (∀ t, d = .textChange t → ∃ (s : Str) (st : Statistics) (new : List UInt8),
    fs.contentAt t.beforePath = some ⟨s.bytes, false⟩ ∧ (applyInto p t.clumps (splitInclusive s) rev).run = (.ok st, new) ∧
    st.failed = 0 ∧ fs'.node (fs.entry t.beforePath) = some (.file new)) ∧
  (∀ path content, d.creates rev = some (path, content) → fs'.node (fs.entry path) = some (.file content)) ∧
  (∀ path, d.deletes rev = some path → fs'.node (fs.entry path) = none)

/-- The full statement of C48 (for text changes, additions and removals). -/
def C48_statement : Prop :=
  ∀ (p : Profile) (temp patch : Path) (rev : Bool) (w : World) (d : Diff), HoldsDiff w.fs patch d →
    ((pwPatch p temp patch rev).run w).1 = .exited 0 → ChangeMade p rev d w.fs ((pwPatch p temp patch rev).run w).2.fs

theorem applyDiff_exists (p : Profile) (temp patch path : Path) (rev : Bool) (w : World) (d : Diff) (hp : HoldsDiff w.fs patch d)
    (hf : w.faults = []) {content : List UInt8} (hc : d.creates rev = some (path, content))
    (h : w.fs.node (w.fs.entry path) ≠ none) : (pwPatch p temp patch rev).run w = (.exited 0, w) := by
  obtain ⟨r, hr, hd⟩ := hp
  apply run_of_ok
  rw [pwPatch_eq hf p temp patch rev hr hd, applyDiff_creates p temp hc]
  unfold addFile
  rw [bind_ok (createNew_exists hf h)]
  rfl

/-- It fails: asked to create a file that already exists, with another content, the program does nothing and reports
success. -/
theorem C48_refuted : ¬ C48_statement := by
  intro h
  obtain ⟨e1, e2, e3, e3', e4, e5, e6, e6', e7, e8⟩ := FS.ofFiles_two [1, 2, 3] exampleRemove.fileContent
  change exampleChangedFS.entry [65] = 0 at e1
  change exampleChangedFS.node 0 = _ at e4
  change exampleChangedFS.contentAt [67] = _ at e8
  generalize exampleChangedFS = fs at *
  have h1 := applyDiff_exists .debug [84] [67] [65] true ⟨fs, [], []⟩ exampleRemove
    (exampleRemove_held e8) rfl (content := [255]) rfl (by simp [e1, e4])
  have h2 := (h .debug [84] [67] true ⟨fs, [], []⟩ exampleRemove (exampleRemove_held e8) (by rw [h1])).2.1 [65] [255] rfl
  rw [h1] at h2
  simp [e1, e4] at h2

/-- A text patch that cannot be applied. -/
def exampleFailing : Diff := .textChange ⟨[65], [66], [⟨(0, 0), ⟨0, [['b', '\n']]⟩, ⟨0, [['c', '\n']]⟩⟩]⟩

/-- It fails for text changes too: the only clump fails, the target is overwritten with the text of the failure, and the
exit status is 0. -/
theorem C48_refuted_change : ∃ (w : World) (st : Statistics) (new : List UInt8), HoldsDiff w.fs [67] exampleFailing ∧
    w.fs.contentAt [65] = some ⟨Str.bytes ['x', '\n'], false⟩ ∧
    (applyInto .debug [(⟨(0, 0), ⟨0, [['b', '\n']]⟩, ⟨0, [['c', '\n']]⟩⟩ : DiffClump Str)] [['x', '\n']] false).run = (.ok st, new) ∧ st.failed = 1 ∧
    (pwPatch .debug [84] [67] false).run w = (.exited 0, { w with fs := w.fs.set (w.fs.entry [65]) (some (.file new)) }) := by
  obtain ⟨e1, e2, e3, e3', e4, e5, e6, e6', e7, e8⟩ := FS.ofFiles_two (Str.bytes ['x', '\n']) exampleFailing.fileContent
  generalize FS.ofFiles [([65], Str.bytes ['x', '\n']), ([67], exampleFailing.fileContent)] = fs at *
  have held : HoldsDiff fs [67] exampleFailing := by
    refine holdsDiff_of_file ?_ ?_ e8
    · intro c hc
      simp only [List.mem_singleton] at hc
      subst hc
      simp [DiffClump.InRange, wordSize]
    · intro path h
      simp only [exampleFailing, Diff.paths, List.mem_cons, List.not_mem_nil, or_false] at h
      rcases h with rfl | rfl
      · exact ⟨['A'], by decide⟩
      · exact ⟨['B'], by decide⟩
  generalize hrun : (applyInto .debug [(⟨(0, 0), ⟨0, [['b', '\n']]⟩, ⟨0, [['c', '\n']]⟩⟩ : DiffClump Str)] [['x', '\n']] false).run = x
  have hst : x.1 = .ok { failed := 1 } := by
    rw [← hrun]
    decide +kernel
  obtain ⟨r, new⟩ := x
  obtain rfl : r = _ := hst
  refine ⟨⟨fs, [], []⟩, _, new, held, e7, rfl, rfl, ?_⟩
  exact C46_normal .debug [84] [67] [65] false _ exampleFailing held rfl rfl (by rw [e3, e6']) e7 ⟨['x', '\n'], _, rfl, hrun⟩

/-- What holds, whatever goes wrong: exit status 0 means that the target of a change was replaced by the complete output of
`apply_into` and that a file to be removed is gone; and if nothing went wrong and the file did not exist, that it was
created with the recorded content. -/
theorem C48_partial (p : Profile) (temp patch : Path) (rev : Bool) (w : World) (d : Diff) (hp : HoldsDiff w.fs patch d)
    (h0 : ((pwPatch p temp patch rev).run w).1 = .exited 0) :
    let w' := ((pwPatch p temp patch rev).run w).2
    (∀ target, d.changed = some target → ∃ old new, w.fs.contentAt target = some ⟨old, false⟩ ∧
      PatchedContent p rev d old new ∧ w'.fs.node (w.fs.entry target) = some (.file new)) ∧
    (∀ path, d.deletes rev = some path → w'.fs.node (w.fs.entry path) = none) ∧
    (∀ path content, d.creates rev = some (path, content) → w.faults = [] → w.fs.node (w.fs.entry path) = none →
      w'.fs.node (w.fs.entry path) = some (.file content)) := by
  refine ⟨?_, ?_, ?_⟩
  · intro target ht
    have := C46_atomic p temp patch target rev w d hp ht
    simp only at this
    rcases this.2.2.2 with ⟨-, h⟩ | ⟨-, h⟩
    · exact absurd h0 h
    · exact h
  · intro path hd
    have := C47_delete p temp patch path rev w d hp hd
    simp only at this
    rcases this.2.2 with ⟨-, h⟩ | ⟨h | h, -⟩
    · exact h
    · rw [h0] at h
      cases h
    · rw [h0] at h
      cases h
  · intro path content hc hf hn
    rw [(C47_normal p temp patch path rev w d hp hf).1 content hc hn]
    simp

/-! ## C49 -/

/-- The shell's `> patch`: the standard output becomes the patch file. -/
def World.redirect (w : World) (patch : Path) : World :=
  { w with fs := w.fs.set (w.fs.entry patch) (some (.file w.stdout)), stdout := [] }

/-- A fresh session: no faults, nothing written yet, and two free names for the patch and the temporary file. -/
structure Fresh (w : World) (patch temp : Path) : Prop where
  faults : w.faults = []
  stdout : w.stdout = []
  patchFree : w.fs.node (w.fs.entry patch) = none
  tempFree : w.fs.node (w.fs.entry temp) = none
  ne : w.fs.entry temp ≠ w.fs.entry patch

/-- `pw_diff before after > patch`, then `pw_patch patch`, then `pw_patch --reverse patch`: the exit states and the state
after each step. -/
def session (p q : Profile) (temp patch before after : Path) (context : Nat) (w : World) :
    (Ended × World) × (Ended × World) × (Ended × World) :=
  let s1 := (pwDiff p before after context).run w
  let s2 := (pwPatch q temp patch false).run (s1.2.redirect patch)
  let s3 := (pwPatch q temp patch true).run s2.2
  (s1, s2, s3)

/-- The full statement of C49 for two text files. -/
def C49_statement : Prop :=
  ∀ (p q : Profile) (temp patch before after : Path) (context : Nat) (w : World) (s t : Str), Fresh w patch temp →
    context ≤ 255 → IsUtf8 before → IsUtf8 after →
    w.fs.contentAt before = some ⟨s.bytes, false⟩ → w.fs.contentAt after = some ⟨t.bytes, false⟩ →
    let (s1, s2, s3) := session p q temp patch before after context w
    s1.1 = .exited 0 ∧ s2.1 = .exited 0 ∧ s3.1 = .exited 0 ∧
    s2.2.fs.contentAt before = some ⟨t.bytes, false⟩ ∧ s3.2.fs.contentAt before = some ⟨s.bytes, false⟩

/-- What `pw_diff` leaves for `pw_patch`. -/
theorem session_diff (p : Profile) {patch temp before after : Path} {context : Nat} {w : World} (hw : Fresh w patch temp)
    {d : Diff} (hd : Diff.new p before after context w = (.ok (some d), w)) (hr : d.InRange)
    (hu : ∀ path ∈ d.paths, IsUtf8 path) :
    (pwDiff p before after context).run w = (.exited 0, { w with stdout := d.fileContent }) ∧
    ∀ fs : FS, fs.node (fs.entry patch) = some (.file d.fileContent) → HoldsDiff fs patch d := by
  constructor
  · have := run_of_ok (pwDiff_eq hw.faults p before after context hd (toWriter_fromReader d hr hu).1)
    rw [hw.stdout] at this
    exact this
  · intro fs h
    exact holdsDiff_of_file hr hu (FS.contentAt_of_file h)

/-- The session when a change diff is made, in terms of what `apply_into` makes of the two contents. -/
theorem session_change (p q : Profile) {patch temp before after : Path} {context : Nat} {w : World} (hw : Fresh w patch temp)
    {d : Diff} (hd : Diff.new p before after context w = (.ok (some d), w)) (hr : d.InRange)
    (hu : ∀ path ∈ d.paths, IsUtf8 path) (hc : d.changed = some before) {b new back : List UInt8}
    (hb : w.fs.contentAt before = some ⟨b, false⟩) (h1 : PatchedContent q false d b new) (h2 : PatchedContent q true d new back) :
    session p q temp patch before after context w =
      ((.exited 0, { w with stdout := d.fileContent }),
       (.exited 0, { w with fs := (w.fs.set (w.fs.entry patch) (some (.file d.fileContent))).set (w.fs.entry before) (some (.file new)) }),
       (.exited 0, { w with fs := (w.fs.set (w.fs.entry patch) (some (.file d.fileContent))).set (w.fs.entry before) (some (.file back)) })) := by
  obtain ⟨e1, held⟩ := session_diff p hw hd hr hu
  have hne : w.fs.entry before ≠ w.fs.entry patch := by
    intro e
    have := FS.entry_some_of_content hb
    rw [e, hw.patchFree] at this
    simp at this
  have htb : w.fs.entry temp ≠ w.fs.entry before := by
    intro e
    have := FS.entry_some_of_content hb
    rw [← e, hw.tempFree] at this
    simp at this
  have e2 := C46_normal q temp patch before false (World.redirect { w with stdout := d.fileContent } patch) d (held _ (by simp [World.redirect]))
    hc hw.faults (by simp [World.redirect, hw.ne, hw.tempFree]) (FS.contentAt_set hb hw.patchFree _) h1
  simp only [World.redirect, FS.set_entry] at e2
  have e3 := C46_normal q temp patch before true
    { w with fs := (w.fs.set (w.fs.entry patch) (some (.file d.fileContent))).set (w.fs.entry before) (some (.file new)), stdout := [] }
    d (held _ (by simp [Ne.symm hne])) hc hw.faults (by simp [hw.ne, htb, hw.tempFree]) (FS.contentAt_of_file (by simp)) h2
  simp only [FS.set_entry, FS.set_set] at e3
  unfold session
  rw [e1]
  simp only [World.redirect]
  rw [e2]
  simp only
  rw [e3]
  rw [show w.stdout = [] from hw.stdout]

/-- What holds for two text files: patching succeeds in both directions and leaves exactly what `C24_partial` and
`C25_partial` describe; if no single differing pair of lines stands between two equal pairs, the first file becomes the
second, and the reverse run restores it.  No other entry is changed. -/
theorem C49_text_partial (p q : Profile) (temp patch before after : Path) (context : Nat) (w : World) (s t : Str)
    (hw : Fresh w patch temp) (hctx : context ≤ 255) (hub : IsUtf8 before) (hua : IsUtf8 after)
    (hb : w.fs.contentAt before = some ⟨s.bytes, false⟩) (ha : w.fs.contentAt after = some ⟨t.bytes, false⟩)
    (hsb : (splitInclusive s).length ≤ maxLines) (hst : (splitInclusive t).length ≤ maxLines)
    (hi : NoIsland (splitInclusive s) (splitInclusive t)) :
    ∃ patchContent, session p q temp patch before after context w =
      ((.exited 0, { w with stdout := patchContent }),
       (.exited 0, { w with fs := (w.fs.set (w.fs.entry patch) (some (.file patchContent))).set (w.fs.entry before) (some (.file t.bytes)) }),
       (.exited 0, { w with fs := (w.fs.set (w.fs.entry patch) (some (.file patchContent))).set (w.fs.entry before) (some (.file s.bytes)) })) := by
  obtain ⟨cs, hcs⟩ := diffClumps_total p (splitInclusive s) (splitInclusive t) context
  have hd := diffNew_text hw.faults p context hb ha hcs
  have hsz : ∀ n, n ≤ maxLines → n < wordSize := by
    intro n h
    simp only [maxLines, wordSize] at *
    omega
  obtain ⟨x, e1, -, -, e2⟩ := C24_partial p q _ _ context hctx hsb hst cs hcs
  obtain ⟨y, f1, -, -, f2⟩ := C25_partial p q _ _ context hctx hsb hst cs hcs
  rw [e2 hi] at e1
  rw [f2 hi] at f1
  have hbytes : ∀ u : Str, bytesOf (splitInclusive u) = u.bytes := by
    intro u
    show (splitInclusive u).flatMap Str.bytes = _
    rw [flatMap_bytes, flatten_splitInclusive]
  rw [hbytes] at e1 f1
  exact ⟨_, session_change p q hw hd (clumps_inRange hctx hcs (hsz _ hsb) (hsz _ hst))
    (by intro path h; simp only [Diff.paths, List.mem_cons, List.not_mem_nil, or_false] at h; rcases h with rfl | rfl <;> assumption)
    rfl hb ⟨s, _, rfl, e1⟩ ⟨t, _, rfl, f1⟩⟩

/-- C49 fails: a line changed between two equal lines is lost, `pw_diff` writes an empty diff. -/
theorem C49_refuted : ¬ C49_statement := by
  intro h
  let s : Str := ['a', '\n', 'b', '\n', 'c', '\n']
  let t : Str := ['a', '\n', 'x', '\n', 'c', '\n']
  obtain ⟨e1, e2, e3, e3', e4, e5, e6, e6', e7, e8⟩ := FS.ofFiles_two s.bytes t.bytes
  generalize FS.ofFiles [([65], s.bytes), ([67], t.bytes)] = fs at *
  have hw : Fresh ⟨fs, [], []⟩ [80] [84] := ⟨rfl, rfl, by simp [e3', e6], by simp [e3, e6'], by simp [e3, e3']⟩
  have hcs : diffClumps .debug (splitInclusive s) (splitInclusive t) 3 = .ok [] := by decide +kernel
  have hd : Diff.new .debug [65] [67] 3 ⟨fs, [], []⟩ = (.ok (some (.textChange ⟨[65], [67], []⟩)), ⟨fs, [], []⟩) :=
    diffNew_text rfl .debug 3 e7 e8 hcs
  have hu : ∀ path ∈ (Diff.textChange ⟨[65], [67], []⟩).paths, IsUtf8 path := by
    intro path h
    simp only [Diff.paths, List.mem_cons, List.not_mem_nil, or_false] at h
    rcases h with rfl | rfl
    · exact ⟨['A'], by decide⟩
    · exact ⟨['C'], by decide⟩
  have hc := session_change .debug .debug hw hd (by intro c hc; cases hc) hu rfl (b := s.bytes) (new := s.bytes) (back := s.bytes) e7
    ⟨s, {}, rfl, by rw [C27_empty]; rfl⟩ ⟨s, {}, rfl, by rw [C27_empty]; rfl⟩
  have := h .debug .debug [84] [80] [65] [67] 3 ⟨fs, [], []⟩ s t hw (by decide) ⟨['A'], by decide⟩ ⟨['C'], by decide⟩ e7 e8
  rw [hc] at this
  simp only at this
  have h2 := this.2.2.2.1
  rw [FS.contentAt_of_file (c := s.bytes) (by simp)] at h2
  revert h2
  decide +kernel

/-- The diff of two files of which at least one is not text. -/
theorem diffNew_bytes {w : World} (hw : w.faults = []) (p : Profile) {before after : Path} (context : Nat) {b a : List UInt8}
    (hb : w.fs.contentAt before = some ⟨b, false⟩) (ha : w.fs.contentAt after = some ⟨a, false⟩)
    (hn : ¬ (IsUtf8 b ∧ IsUtf8 a)) {cs : List (DiffClump UInt8)} (hcs : diffClumps p b a context = .ok cs) :
    Diff.new p before after context w = (.ok (some (.byteChange ⟨before, after, false, cs⟩)), w) := by
  unfold Diff.new
  rw [bind_ok (pathExists_eq hw before), hb]
  simp only [Option.isSome_some, if_true]
  rw [bind_ok (pathExists_eq hw after), ha]
  simp only [Option.isSome_some, if_true]
  rw [bind_ok (textChange_none hw p context hb ha (fun h => hn ⟨h.1.2, h.2.2⟩))]
  simp only
  rw [bind_ok (byteChange_some hw p context hb ha hcs)]
  rfl

/-- What holds for files of which at least one is not text: with context (at least 1), both files not empty and no single
differing pair of bytes between two equal pairs, the first becomes the second, and the reverse run restores it. -/
theorem C49_bytes_partial (p q : Profile) (temp patch before after : Path) (context : Nat) (w : World) (b a : List UInt8)
    (hw : Fresh w patch temp) (h1 : 1 ≤ context) (hctx : context ≤ 255) (hub : IsUtf8 before) (hua : IsUtf8 after)
    (hb : w.fs.contentAt before = some ⟨b, false⟩) (ha : w.fs.contentAt after = some ⟨a, false⟩)
    (hn : ¬ (IsUtf8 b ∧ IsUtf8 a)) (hbne : b ≠ []) (hane : a ≠ [])
    (hsz : 2 * b.length + 2 * a.length < wordSize) (hi : NoIsland b a) :
    ∃ patchContent, session p q temp patch before after context w =
      ((.exited 0, { w with stdout := patchContent }),
       (.exited 0, { w with fs := (w.fs.set (w.fs.entry patch) (some (.file patchContent))).set (w.fs.entry before) (some (.file a)) }),
       (.exited 0, { w with fs := (w.fs.set (w.fs.entry patch) (some (.file patchContent))).set (w.fs.entry before) (some (.file b)) })) := by
  obtain ⟨cs, hcs⟩ := diffClumps_total p b a context
  have hd := diffNew_bytes hw.faults p context hb ha hn hcs
  obtain ⟨x, e1, -, -, e2⟩ := C40_partial p q b a context h1 hctx hbne (by omega) cs hcs
  obtain ⟨y, f1, -, -, f2⟩ := C40_reverse_partial p q b a context h1 hctx hane (by omega) cs hcs
  rw [e2 hi] at e1
  rw [f2 hi] at f1
  exact ⟨_, session_change p q hw hd (clumps_inRange hctx hcs (by omega) (by omega))
    (by intro path h; simp only [Diff.paths, List.mem_cons, List.not_mem_nil, or_false] at h; rcases h with rfl | rfl <;> assumption)
    rfl hb e1 f1⟩

/-- What holds if the first file does not exist: it is created with the content of the second, whatever that is; the
reverse run removes it. -/
theorem C49_add (p q : Profile) (temp patch before after : Path) (context : Nat) (w : World) (a : List UInt8)
    (hw : Fresh w patch temp) (hub : IsUtf8 before) (hne : w.fs.entry before ≠ w.fs.entry patch)
    (hb : w.fs.node (w.fs.entry before) = none) (ha : w.fs.contentAt after = some ⟨a, false⟩) :
    ∃ patchContent, session p q temp patch before after context w =
      ((.exited 0, { w with stdout := patchContent }),
       (.exited 0, { w with fs := (w.fs.set (w.fs.entry patch) (some (.file patchContent))).set (w.fs.entry before) (some (.file a)) }),
       (.exited 0, { w with fs := w.fs.set (w.fs.entry patch) (some (.file patchContent)) })) := by
  obtain ⟨o, e1, e2, e3⟩ := C43_variant p before after context w hw.faults
  have hcb := FS.contentAt_none hb
  rw [hcb, ha] at e2
  cases o with
  | none => simp at e2
  | some d =>
    have hm := e3 d rfl
    have key : d.creates false = some (before, a) ∧ d.InRange ∧ ∀ path ∈ d.paths, IsUtf8 path := by
      cases d with
      | textAdd d =>
        obtain ⟨h1, -, s, h2, h3⟩ := hm
        rw [ha] at h2
        obtain rfl : a = s.bytes := by cases h2; rfl
        refine ⟨?_, trivial, by simpa [Diff.paths, h1] using hub⟩
        simp only [Diff.creates, Bool.false_eq_true, if_false]
        rw [h1, h3, flatMap_bytes, flatten_splitInclusive]
      | byteAdd d =>
        obtain ⟨h1, -, -, h2, -⟩ := hm
        rw [ha] at h2
        obtain rfl : a = d.bytes := by cases h2; rfl
        refine ⟨?_, trivial, by simpa [Diff.paths, h1] using hub⟩
        simp only [Diff.creates, Bool.false_eq_true, if_false]
        rw [h1]
      | textChange d => obtain ⟨-, -, s, t, h, -⟩ := hm; rw [hcb] at h; cases h
      | byteChange d => obtain ⟨-, -, -, s, t, h, -⟩ := hm; rw [hcb] at h; cases h
      | textRemove d => obtain ⟨-, -, s, h, -⟩ := hm; rw [hcb] at h; cases h
      | byteRemove d => obtain ⟨-, -, -, h, -⟩ := hm; rw [hcb] at h; cases h
    obtain ⟨hc, hr, hu⟩ := key
    obtain ⟨f1, held⟩ := session_diff p hw e1 hr hu
    refine ⟨d.fileContent, ?_⟩
    unfold session
    rw [f1]
    simp only [World.redirect]
    have f2 := (C47_normal q temp patch before false
      { w with fs := w.fs.set (w.fs.entry patch) (some (.file d.fileContent)), stdout := [] } d (held _ (by simp)) hw.faults).1 a hc
      (by simp [hne, hb])
    simp only [FS.set_entry] at f2
    rw [f2]
    have f3 := C47_undo_partial q temp patch before
      { w with fs := w.fs.set (w.fs.entry patch) (some (.file d.fileContent)), stdout := [] } d (held _ (by simp)) hw.faults false
      (by simpa using hne) (c := d.fileContent) (by simp) (.inl ⟨a, hc, by simp [hne, hb]⟩)
    rw [f2] at f3
    simp only [Bool.not_false] at f3
    rw [f3, hw.stdout]

/-- What holds if the second file does not exist: the first is removed; the reverse run puts it back. -/
theorem C49_remove (p q : Profile) (temp patch before after : Path) (context : Nat) (w : World) (b : List UInt8)
    (hw : Fresh w patch temp) (hub : IsUtf8 before)
    (hb : w.fs.contentAt before = some ⟨b, false⟩) (ha : w.fs.contentAt after = none) :
    ∃ patchContent, session p q temp patch before after context w =
      ((.exited 0, { w with stdout := patchContent }),
       (.exited 0, { w with fs := (w.fs.set (w.fs.entry patch) (some (.file patchContent))).set (w.fs.entry before) none }),
       (.exited 0, { w with fs := (w.fs.set (w.fs.entry patch) (some (.file patchContent))).set (w.fs.entry before) (some (.file b)) })) := by
  obtain ⟨o, e1, e2, e3⟩ := C43_variant p before after context w hw.faults
  rw [hb, ha] at e2
  cases o with
  | none => simp at e2
  | some d =>
    have hm := e3 d rfl
    have key : d.deletes false = some before ∧ d.creates true = some (before, b) ∧ d.InRange ∧ ∀ path ∈ d.paths, IsUtf8 path := by
      cases d with
      | textRemove d =>
        obtain ⟨h1, -, s, h2, h3⟩ := hm
        rw [hb] at h2
        obtain rfl : b = s.bytes := by cases h2; rfl
        refine ⟨by simp [Diff.deletes, h1], ?_, trivial, by simpa [Diff.paths, h1] using hub⟩
        simp only [Diff.creates, if_true]
        rw [h1, h3, flatMap_bytes, flatten_splitInclusive]
      | byteRemove d =>
        obtain ⟨h1, -, -, h2, -⟩ := hm
        rw [hb] at h2
        obtain rfl : b = d.bytes := by cases h2; rfl
        refine ⟨by simp [Diff.deletes, h1], ?_, trivial, by simpa [Diff.paths, h1] using hub⟩
        simp only [Diff.creates, if_true]
        rw [h1]
      | textChange d => obtain ⟨-, -, s, t, -, h, -⟩ := hm; rw [ha] at h; cases h
      | byteChange d => obtain ⟨-, -, -, s, t, -, h, -⟩ := hm; rw [ha] at h; cases h
      | textAdd d => obtain ⟨-, -, s, h, -⟩ := hm; rw [ha] at h; cases h
      | byteAdd d => obtain ⟨-, -, -, h, -⟩ := hm; rw [ha] at h; cases h
    obtain ⟨hdel, hc, hr, hu⟩ := key
    obtain ⟨f1, held⟩ := session_diff p hw e1 hr hu
    have hsome := FS.entry_some_of_content hb
    have hne : w.fs.entry before ≠ w.fs.entry patch := by
      intro e
      rw [e, hw.patchFree] at hsome
      simp at hsome
    refine ⟨d.fileContent, ?_⟩
    unfold session
    rw [f1]
    simp only [World.redirect]
    have f2 := (C47_normal q temp patch before false
      { w with fs := w.fs.set (w.fs.entry patch) (some (.file d.fileContent)), stdout := [] } d (held _ (by simp)) hw.faults).2 hdel
      (by simpa [hne] using Option.isSome_iff_ne_none.1 hsome) (by simpa [hne] using FS.entry_not_dir hb)
    simp only [FS.set_entry] at f2
    rw [f2]
    have f3 := (C47_normal q temp patch before true
      { w with fs := (w.fs.set (w.fs.entry patch) (some (.file d.fileContent))).set (w.fs.entry before) none, stdout := [] } d
      (held _ (by simp [Ne.symm hne])) hw.faults).1 b hc (by simp)
    simp only [FS.set_entry, FS.set_set] at f3
    rw [f3, hw.stdout]

/-- The hypotheses are met by a session with two small files. -/
example (a c : List UInt8) : Fresh ⟨FS.ofFiles [([65], a), ([67], c)], [], []⟩ [80] [84] := by
  obtain ⟨e1, e2, e3, e3', e4, e5, e6, e6', e7, e8⟩ := FS.ofFiles_two a c
  exact ⟨rfl, rfl, by simp only [e3', e6], by simp only [e3, e6'], by simp only [e3, e3']; decide⟩
example : NoIsland (splitInclusive ['a', '\n', 'b', '\n']) (splitInclusive ['a', '\n', 'c', '\n', 'b', '\n']) :=
  noIsland_of_check (by decide +kernel)

/-! ## C61 -/

/-- Whatever goes wrong: `pw_diff` changes no file and no directory, and its exit status is 0, 1 (no diff) or 5 (the diff
could not be written) unless it is killed. -/
theorem C61_readOnly (p : Profile) (before after : Path) (context : Nat) (w : World) :
    let (ended, w') := (pwDiff p before after context).run w
    w'.fs = w.fs ∧ (ended = .exited 0 ∨ ended = .exited 1 ∨ ended = .exited 5 ∨ ended = .killed) := by
  have main : (pwDiff p before after context).Sat w fun r w' => w'.fs = w.fs ∧
      (r = .ok () ∨ r = .error (.exited 1) ∨ r = .error (.exited 5) ∨ r = .error .killed) := by
    unfold pwDiff
    apply Sat.bind
    refine (quiet_diffNew p before after context w).mono ?_
    rintro r w1 ⟨h1, h2, h3⟩
    cases r with
    | error e =>
      rcases h3 with ⟨a, h3⟩ | h3
      · cases h3
      · cases h3
        exact ⟨h1, .inr (.inr (.inr rfl))⟩
    | ok o =>
      cases o with
      | none => exact ⟨h1, .inr (.inl rfl)⟩
      | some d =>
        have hr : ∀ fl out r, (r = .ok () ∨ r = .ioErr) → (do
            let some _ ← ofOutcome r | exit 5
            return () : Sys Unit).Sat ⟨w1.fs, fl, out⟩ fun r w' => w'.fs = w.fs ∧
              (r = .ok () ∨ r = .error (.exited 1) ∨ r = .error (.exited 5) ∨ r = .error .killed) := by
          intro fl out r hr
          rcases hr with rfl | rfl
          · exact ⟨h1, .inl rfl⟩
          · exact ⟨h1, .inr (.inr (.inl rfl))⟩
        have hd : d.toWriter.run.1 = .ok () ∨ d.toWriter.run.1 = .ioErr := by
          obtain ⟨out, r, e1, e2⟩ := ends_toWriter d
          rw [e1, WM.run_emit]
          rcases e2 with ⟨-, rfl⟩ | ⟨-, rfl⟩
          · exact .inl rfl
          · exact .inr rfl
        apply Sat.bind
        unfold writeStdout
        apply sat_operation
        · intro fl
          exact hr _ _ _ hd
        · intro fl n
          refine hr _ _ _ ?_
          split
          · exact hd
          · exact .inr rfl
        · intro fl n
          exact ⟨h1, .inr (.inr (.inr rfl))⟩
  refine run_eq (Q := fun ended w' => w'.fs = w.fs ∧ (ended = .exited 0 ∨ ended = .exited 1 ∨ ended = .exited 5 ∨ ended = .killed))
    (main.mono ?_)
  rintro r w' ⟨h1, h2⟩
  rcases h2 with rfl | rfl | rfl | rfl
  · exact ⟨h1, .inl rfl⟩
  · exact ⟨h1, .inr (.inl rfl)⟩
  · exact ⟨h1, .inr (.inr (.inl rfl))⟩
  · exact ⟨h1, .inr (.inr (.inr rfl))⟩

/-- If nothing goes wrong: 1 if there is no diff, 5 if one of the paths recorded in the diff is not UTF-8, otherwise 0 and
the diff is the standard output. -/
theorem C61_status (p : Profile) (before after : Path) (context : Nat) (w : World) (hf : w.faults = []) (o : Option Diff)
    (ho : Diff.new p before after context w = (.ok o, w)) :
    (o = none → (pwDiff p before after context).run w = (.exited 1, w)) ∧
    (∀ d, o = some d → (¬ ∀ path ∈ d.paths, IsUtf8 path) → ((pwDiff p before after context).run w).1 = .exited 5) ∧
    (∀ d, o = some d → (∀ path ∈ d.paths, IsUtf8 path) → ∃ out, d.toWriter.run = (.ok (), out) ∧
      (pwDiff p before after context).run w = (.exited 0, { w with stdout := w.stdout ++ out })) := by
  refine ⟨?_, ?_, ?_⟩
  · rintro rfl
    unfold Sys.run pwDiff
    rw [bind_ok ho]
    rfl
  · rintro d rfl hd
    obtain ⟨out, r, e1, e2⟩ := ends_toWriter d
    rcases e2 with ⟨h, -⟩ | ⟨-, rfl⟩
    · exact absurd h hd
    · unfold Sys.run pwDiff
      rw [bind_ok ho]
      simp only
      have : writeStdout d.toWriter w = (.ok .ioErr, { w with stdout := w.stdout ++ out }) := by
        unfold writeStdout
        rw [operation_normal hf, e1, WM.run_emit]
      rw [bind_ok this]
      rfl
  · rintro d rfl hd
    obtain ⟨out, r, e1, e2⟩ := ends_toWriter d
    rcases e2 with ⟨-, rfl⟩ | ⟨h, -⟩
    · exact ⟨out, by rw [e1, WM.run_emit], run_of_ok (pwDiff_eq hf p before after context ho e1)⟩
    · exact absurd hd h

example (p : Profile) : ((pwDiff p [65] [66] 3).run ⟨FS.ofFiles [], [], []⟩).1 = .exited 1 := rfl

/-! ## C62 -/

/-- The full statement of C62: exit status 0 of `pw_diff` means that a complete diff was written. -/
def C62_statement : Prop :=
  ∀ (p : Profile) (before after : Path) (context : Nat) (w : World), w.stdout = [] →
    ((pwDiff p before after context).run w).1 = .exited 0 →
    ∃ d : Diff, Diff.fromReader ⟨((pwDiff p before after context).run w).2.stdout, false⟩ = .ok d

/-- A diff that adds an empty file. -/
def exampleAdd : Diff := .textAdd ⟨[67], []⟩

/-- It fails: the last line of the output has no newline, so it is written when the process exits, and an error then is
ignored.  The file that remains lacks the closing brace. -/
theorem C62_refuted : ¬ C62_statement := by
  intro h
  have hu : ∀ path ∈ exampleAdd.paths, IsUtf8 path := by
    intro path h
    simp only [exampleAdd, Diff.paths, List.mem_singleton] at h
    subst h
    exact ⟨['C'], by decide⟩
  have hout := (toWriter_fromReader exampleAdd trivial hu).1
  let n := (wholeLines exampleAdd.fileContent).length
  let fs := FS.ofFiles [([65], [])]
  have hd : Diff.new .debug [67] [65] 3 ⟨fs, [.none, .none, .none, .fail n], []⟩ = (.ok (some exampleAdd), ⟨fs, [.fail n], []⟩) := by
    unfold Diff.new
    rw [bind_ok (m := pathExists [67]) (a := false) (w' := ⟨fs, [.none, .none, .fail n], []⟩) rfl]
    simp only [Bool.false_eq_true, if_false]
    rw [bind_ok (m := pathExists [65]) (a := true) (w' := ⟨fs, [.none, .fail n], []⟩) rfl]
    simp only [if_true]
    have : PathAndLines.new [65] ⟨fs, [.none, .fail n], []⟩ = (.ok (some ⟨[65], []⟩), ⟨fs, [.fail n], []⟩) := by
      unfold PathAndLines.new
      rw [bind_ok (m := openFile [65]) (a := some ⟨[], false⟩) (w' := ⟨fs, [.fail n], []⟩) rfl]
      simp only
      rw [show readText ⟨[], false⟩ = .ok [] from readText_bytes []]
      rfl
    rw [bind_ok this]
    rfl
  have hrun : (pwDiff .debug [67] [65] 3).run ⟨fs, [.none, .none, .none, .fail n], []⟩ =
      (.exited 0, ⟨fs, [], exampleAdd.fileContent.take n⟩) := by
    apply run_of_ok
    unfold pwDiff
    rw [bind_ok hd]
    simp only
    have : writeStdout exampleAdd.toWriter ⟨fs, [.fail n], []⟩ = (.ok (.ok ()), ⟨fs, [], exampleAdd.fileContent.take n⟩) := by
      show (Except.ok (if (wholeLines exampleAdd.toWriter.run.2).length ≤ n then exampleAdd.toWriter.run.1 else .ioErr),
        (⟨fs, [], [] ++ exampleAdd.toWriter.run.2.take n⟩ : World)) = _
      rw [hout, WM.run_emit]
      simp only [List.nil_append]
      rw [show (Json.text 0 (Json.ofDiff exampleAdd)).bytes = exampleAdd.fileContent from rfl, if_pos (Nat.le_refl _)]
    rw [bind_ok this]
    rfl
  obtain ⟨d, hd⟩ := h .debug [67] [65] 3 ⟨fs, [.none, .none, .none, .fail n], []⟩ rfl (by rw [hrun])
  rw [hrun] at hd
  have hj : exampleAdd.fileContent = (Json.text 0 (.obj [(Json.kTextAdd, .obj [(Json.kPath, .str ['C']), (Json.kLines, .arr [])])])).bytes := by
    unfold Diff.fileContent exampleAdd Json.ofDiff
    simp only
    rw [ofPath_utf8 (s := ['C']) (by decide)]
    rfl
  let s : Str := (Json.text 0 (.obj [(Json.kTextAdd, .obj [(Json.kPath, .str ['C']), (Json.kLines, .arr [])])])).dropLast
  have hs : exampleAdd.fileContent.take n = s.bytes := by
    show exampleAdd.fileContent.take (wholeLines exampleAdd.fileContent).length = _
    rw [hj]
    decide +kernel
  rw [hs] at hd
  unfold Diff.fromReader at hd
  rw [if_neg (by simp), decodeUtf8_bytes] at hd
  simp only at hd
  rw [show Json.readDocument s = none from by decide +kernel] at hd
  cases hd

/-- The bytes before and including the last newline of what a diff is written as are all but the closing brace. -/
theorem take_wholeLines {d : Diff} {out : List UInt8} (h : d.toWriter.run = (.ok (), out)) {n : Nat}
    (hn : (wholeLines out).length ≤ n) : out.take n = out ∨ out.take n = out.dropLast := by
  obtain ⟨init, rfl⟩ := toWriter_last h
  have : wholeLines (init ++ [10, 125]) = init ++ [10] := by
    unfold wholeLines
    simp
  rw [this] at hn
  simp only [List.length_append, List.length_cons, List.length_nil] at hn
  by_cases hm : init.length + 2 ≤ n
  · exact .inl (List.take_of_length_le (by simp; omega))
  · refine .inr ?_
    rw [List.dropLast_eq_take]
    congr 1
    simp only [List.length_append, List.length_cons, List.length_nil]
    omega

/-- What holds, whatever goes wrong: with exit status 0 the diff was made and written completely, or completely but for the
closing brace. -/
theorem C62_partial (p : Profile) (before after : Path) (context : Nat) (w : World)
    (h0 : ((pwDiff p before after context).run w).1 = .exited 0) :
    ∃ (d : Diff) (w1 : World) (out : List UInt8), Diff.new p before after context w = (.ok (some d), w1) ∧
      d.toWriter.run = (.ok (), out) ∧
      (((pwDiff p before after context).run w).2.stdout = w.stdout ++ out ∨
       ((pwDiff p before after context).run w).2.stdout = w.stdout ++ out.dropLast) := by
  let Good (w' : World) : Prop := ∃ (d : Diff) (w1 : World) (out : List UInt8),
    Diff.new p before after context w = (.ok (some d), w1) ∧ d.toWriter.run = (.ok (), out) ∧
      (w'.stdout = w.stdout ++ out ∨ w'.stdout = w.stdout ++ out.dropLast)
  have main : (pwDiff p before after context).Sat w fun r w' => r ≠ .error (.exited 0) ∧ (r = .ok () → Good w') := by
    unfold pwDiff
    apply Sat.bind
    have hq : (Diff.new p before after context).Sat w fun r w1 =>
        (w1.fs = w.fs ∧ w1.stdout = w.stdout ∧ ((∃ a, r = .ok a) ∨ r = .error .killed)) ∧
          Diff.new p before after context w = (r, w1) := ⟨quiet_diffNew p before after context w, rfl⟩
    refine hq.mono ?_
    rintro r w1 ⟨⟨h1, h2, h3⟩, hd⟩
    cases r with
    | error e =>
      rcases h3 with ⟨a, h3⟩ | h3
      · cases h3
      · cases h3
        exact ⟨by simp, by simp⟩
    | ok o =>
      cases o with
      | none => exact ⟨by simp [exit], by simp [exit]⟩
      | some d =>
        have hr : ∀ fl n r, (r = .ok () ∨ r = .ioErr) →
            (r = .ok () → d.toWriter.run.1 = .ok () ∧ (wholeLines d.toWriter.run.2).length ≤ n) → (do
            let some _ ← ofOutcome r | exit 5
            return () : Sys Unit).Sat ⟨w1.fs, fl, w1.stdout ++ d.toWriter.run.2.take n⟩ fun r w' => r ≠ .error (.exited 0) ∧
              (r = .ok () → Good w') := by
          intro fl n r hr hok
          rcases hr with rfl | rfl
          · refine ⟨(by intro h; cases h), fun _ => ⟨d, w1, d.toWriter.run.2, hd, ?_, ?_⟩⟩
            · rw [← (hok rfl).1]
            · show w1.stdout ++ d.toWriter.run.2.take n = _ ∨ w1.stdout ++ d.toWriter.run.2.take n = _
              rw [h2]
              exact (take_wholeLines (d := d) (by rw [← (hok rfl).1]) (hok rfl).2).imp (by rintro e; rw [e]) (by rintro e; rw [e])
          · exact ⟨(by intro h; cases h), (by intro h; cases h)⟩
        have hd : d.toWriter.run.1 = .ok () ∨ d.toWriter.run.1 = .ioErr := by
          obtain ⟨out, r, e1, e2⟩ := ends_toWriter d
          rw [e1, WM.run_emit]
          rcases e2 with ⟨-, rfl⟩ | ⟨-, rfl⟩
          · exact .inl rfl
          · exact .inr rfl
        have hle : ∀ bs : List UInt8, (wholeLines bs).length ≤ bs.length := by
          intro bs
          unfold wholeLines
          rw [List.length_reverse, ← List.length_reverse (as := bs)]
          exact (List.dropWhile_sublist _).length_le
        apply Sat.bind
        unfold writeStdout
        apply sat_operation
        · intro fl
          have := hr fl d.toWriter.run.2.length d.toWriter.run.1 hd (fun h => ⟨h, hle _⟩)
          rw [List.take_length] at this
          exact this
        · intro fl n
          refine hr fl n _ ?_ ?_
          · split
            · exact hd
            · exact .inr rfl
          · intro h
            split at h
            · next hn => exact ⟨h, hn⟩
            · cases h
        · intro fl n
          exact ⟨by simp, by simp⟩
  unfold Sat at main
  unfold Sys.run at h0 ⊢
  cases hm : pwDiff p before after context w with
  | mk r w' =>
    rw [hm] at main h0
    cases r with
    | ok u => exact main.2 rfl
    | error e =>
      exfalso
      apply main.1
      simp only at h0 ⊢
      rw [h0]

/-! ## Examples -/

/-- `C44_lines`: a text. -/
example : ∃ c, (FS.ofFiles [([65], Str.bytes ['a', '\n', 'b'])]).contentAt [65] = some ⟨c, false⟩ ∧
    (⟨[65], [['a', '\n'], ['b']]⟩ : PathAndLines).writeInto.run = (.ok (), c) :=
  (C44_lines [65] ⟨FS.ofFiles [([65], Str.bytes ['a', '\n', 'b'])], [], []⟩ ⟨[65], [['a', '\n'], ['b']]⟩ _
    (pathAndLines_some rfl (s := ['a', '\n', 'b']) rfl)).2
/-- `C44_bytes`: a file that is not text. -/
example : ∃ c, (FS.ofFiles [([1], [255, 0])]).contentAt [1] = some ⟨c, false⟩ ∧ (⟨[1], false, [255, 0]⟩ : PathAndBytes).writeInto.run = (.ok (), c) :=
  (C44_bytes [1] ⟨FS.ofFiles [([1], [255, 0])], [], []⟩ _ _ rfl).2.2

/-- `C45_roundTrip`. -/
example : ∃ out, exampleDiff.toWriter.run = (.ok (), out) ∧ Diff.fromReader ⟨out, false⟩ = .ok exampleDiff := by
  refine C45_roundTrip _ ?_ ?_
  · intro c hc
    simp only [List.mem_singleton] at hc
    subst hc
    simp [DiffClump.InRange, wordSize]
  · intro path h
    simp only [exampleDiff, Diff.paths, List.mem_cons, List.not_mem_nil, or_false] at h
    rcases h with rfl | rfl
    · exact ⟨['A'], by decide⟩
    · exact ⟨['B'], by decide⟩

/-- `C46_atomic`: the hypotheses, with an error at the fourth operation. -/
example : ∃ w : World, HoldsDiff w.fs [67] exampleDiff ∧ exampleDiff.changed = some [65] ∧ w.faults = [.none, .none, .none, .fail 2] :=
  ⟨⟨exampleFS, [.none, .none, .none, .fail 2], []⟩, exampleDiff_held, rfl, rfl⟩
/-- `C46_normal` and `C48_partial`: the file becomes `[1, 7, 8, 3]`. -/
example : (pwPatch .release [84] [67] false).run ⟨exampleFS, [], []⟩ =
      (.exited 0, ⟨exampleFS.set (exampleFS.entry [65]) (some (.file [1, 7, 8, 3])), [], []⟩) ∧
    ∃ old new, exampleFS.contentAt [65] = some ⟨old, false⟩ ∧ PatchedContent .release false exampleDiff old new ∧
      (exampleFS.set (exampleFS.entry [65]) (some (.file [1, 7, 8, 3]))).node (exampleFS.entry [65]) = some (.file new) := by
  have held := exampleDiff_held
  obtain ⟨e1, e2, e3, e3', e4, e5, e6, e6', e7, e8⟩ := FS.ofFiles_two [1, 2, 3] exampleDiff.fileContent
  change exampleFS.entry [84] = 3 at e3
  change exampleFS.node 3 = _ at e6'
  change exampleFS.contentAt [65] = _ at e7
  generalize exampleFS = fs at *
  have h := C46_normal .release [84] [67] [65] false ⟨fs, [], []⟩ exampleDiff held rfl rfl (by simp only [e3, e6'])
    (old := [1, 2, 3]) (new := [1, 7, 8, 3]) e7 (by show (byteApplyInto _ _ _ _).run = _; decide +kernel)
  have h2 := (C48_partial .release [84] [67] false ⟨fs, [], []⟩ exampleDiff held (by rw [h])).1 [65] rfl
  rw [h] at h2
  exact ⟨h, h2⟩

/-- `C46_unreadable`: the patch file is not text. -/
example : let (ended, w') := (pwPatch .debug [84] [65] false).run ⟨FS.ofFiles [([65], [255])], [], []⟩
    (ended = .exited 1 ∨ ended = .killed) ∧ w'.fs = FS.ofFiles [([65], [255])] ∧ w'.stdout = [] := by
  refine C46_unreadable .debug [84] [65] false ⟨FS.ofFiles [([65], [255])], [], []⟩ fun r hr d hd => ?_
  obtain rfl : (⟨[255], false⟩ : Reader) = r := Option.some.inj hr
  unfold Diff.fromReader at hd
  cases hu : decodeUtf8 [255] with
  | none => simp [hu] at hd
  | some s => exact not_utf8_ff ⟨s, decodeUtf8_eq_some.1 hu⟩

/-- The file to be removed has the recorded content. -/
def exampleRemoveFS : FS := FS.ofFiles [([65], [255]), ([67], exampleRemove.fileContent)]

/-- `C47_delete` and `C47_normal`: the file is removed; `C47_undo_partial`: and comes back. -/
example : (pwPatch .debug [84] [67] false).run ⟨exampleRemoveFS, [], []⟩ =
      (.exited 0, ⟨exampleRemoveFS.set (exampleRemoveFS.entry [65]) none, [], []⟩) ∧
    (pwPatch .debug [84] [67] true).run ((pwPatch .debug [84] [67] false).run ⟨exampleRemoveFS, [], []⟩).2 =
      (.exited 0, ⟨exampleRemoveFS, [], []⟩) := by
  obtain ⟨e1, e2, e3, e3', e4, e5, e6, e6', e7, e8⟩ := FS.ofFiles_two [255] exampleRemove.fileContent
  change exampleRemoveFS.entry [65] = 0 at e1
  change exampleRemoveFS.entry [67] = 1 at e2
  change exampleRemoveFS.node 0 = _ at e4
  change exampleRemoveFS.node 1 = _ at e5
  change exampleRemoveFS.contentAt [67] = _ at e8
  generalize exampleRemoveFS = fs at *
  have held : HoldsDiff fs [67] exampleRemove := exampleRemove_held e8
  have h := C47_undo_partial .debug [84] [67] [65] ⟨fs, [], []⟩ exampleRemove held rfl false (by simp [e1, e2]) (by simp only [e2, e5]; rfl)
      (.inr ⟨[255], rfl, by simp only [e1, e4]⟩)
  rw [Bool.not_false] at h
  refine ⟨(C47_normal .debug [84] [67] [65] false ⟨fs, [], []⟩ exampleRemove held rfl).2 rfl ?_ ?_, h⟩
  · simp [e1, e4]
  · simp [e1, e4]
/-- `C47_create` and `C47_delete`: the hypotheses, when the disk is full and when the file cannot be removed. -/
example : ∃ w : World, HoldsDiff w.fs [67] exampleRemove ∧ exampleRemove.creates true = some ([65], [255]) ∧
    exampleRemove.deletes false = some [65] ∧ w.faults = [.none, .fail 0] :=
  ⟨⟨exampleRemoveFS, [.none, .fail 0], []⟩, exampleRemove_held (FS.ofFiles_two [255] exampleRemove.fileContent).2.2.2.2.2.2.2.2.2, rfl, rfl, rfl⟩

/-- `C49_text_partial`: a line is put in. -/
example : ∃ (w : World) (patchContent : List UInt8), session .debug .release [84] [80] [65] [67] 3 w =
    ((.exited 0, { w with stdout := patchContent }),
     (.exited 0, { w with fs := (w.fs.set (w.fs.entry [80]) (some (.file patchContent))).set (w.fs.entry [65]) (some (.file (Str.bytes ['a', '\n', 'c', '\n', 'b', '\n']))) }),
     (.exited 0, { w with fs := (w.fs.set (w.fs.entry [80]) (some (.file patchContent))).set (w.fs.entry [65]) (some (.file (Str.bytes ['a', '\n', 'b', '\n']))) })) := by
  obtain ⟨e1, e2, e3, e3', e4, e5, e6, e6', e7, e8⟩ := FS.ofFiles_two (Str.bytes ['a', '\n', 'b', '\n']) (Str.bytes ['a', '\n', 'c', '\n', 'b', '\n'])
  refine ⟨⟨FS.ofFiles [([65], Str.bytes ['a', '\n', 'b', '\n']), ([67], Str.bytes ['a', '\n', 'c', '\n', 'b', '\n'])], [], []⟩, ?_⟩
  generalize FS.ofFiles [([65], Str.bytes ['a', '\n', 'b', '\n']), ([67], Str.bytes ['a', '\n', 'c', '\n', 'b', '\n'])] = fs at *
  exact C49_text_partial .debug .release [84] [80] [65] [67] 3 _ ['a', '\n', 'b', '\n'] ['a', '\n', 'c', '\n', 'b', '\n']
    ⟨rfl, rfl, by simp only [e3', e6], by simp only [e3, e6'], by simp only [e3, e3']; decide⟩ (by decide) ⟨['A'], by decide⟩ ⟨['C'], by decide⟩
    e7 e8 (by decide +kernel) (by decide +kernel) (noIsland_of_check (by decide +kernel))
/-- `C49_bytes_partial`: a byte is added to a file that is not text. -/
example : ∃ (w : World) (patchContent : List UInt8), session .debug .release [84] [80] [65] [67] 3 w =
    ((.exited 0, { w with stdout := patchContent }),
     (.exited 0, { w with fs := (w.fs.set (w.fs.entry [80]) (some (.file patchContent))).set (w.fs.entry [65]) (some (.file [255, 1])) }),
     (.exited 0, { w with fs := (w.fs.set (w.fs.entry [80]) (some (.file patchContent))).set (w.fs.entry [65]) (some (.file [255])) })) := by
  obtain ⟨e1, e2, e3, e3', e4, e5, e6, e6', e7, e8⟩ := FS.ofFiles_two [255] [255, 1]
  refine ⟨⟨FS.ofFiles [([65], [255]), ([67], [255, 1])], [], []⟩, ?_⟩
  generalize FS.ofFiles [([65], [255]), ([67], [255, 1])] = fs at *
  exact C49_bytes_partial .debug .release [84] [80] [65] [67] 3 _ [255] [255, 1]
    ⟨rfl, rfl, by simp only [e3', e6], by simp only [e3, e6'], by simp only [e3, e3']; decide⟩ (by decide) (by decide) ⟨['A'], by decide⟩ ⟨['C'], by decide⟩
    e7 e8 (fun h => not_utf8_ff h.1) (by decide) (by decide) (by decide) (noIsland_of_check (by decide +kernel))
/-- `C49_add`: the first file (`T`) is missing; the temporary file has the name of a free entry. -/
example : ∃ (w : World) (patchContent : List UInt8), session .debug .release [86] [80] [84] [67] 3 w =
    ((.exited 0, { w with stdout := patchContent }),
     (.exited 0, { w with fs := (w.fs.set (w.fs.entry [80]) (some (.file patchContent))).set (w.fs.entry [84]) (some (.file [255, 1])) }),
     (.exited 0, { w with fs := w.fs.set (w.fs.entry [80]) (some (.file patchContent)) })) := by
  let fs : FS := ⟨fun path => if path = [67] then 0 else if path = [80] then 1 else if path = [84] then 2 else 3,
    fun i => if i = 0 then some (.file [255, 1]) else none⟩
  exact ⟨⟨fs, [], []⟩, C49_add .debug .release [86] [80] [84] [67] 3 ⟨fs, [], []⟩ [255, 1]
    ⟨rfl, rfl, rfl, rfl, by decide⟩ ⟨['T'], by decide⟩ (by decide) rfl rfl⟩

/-- `C62_partial`: the same, seen from `pw_diff`. -/
example : ∃ w : World, ((pwDiff .debug [84] [67] 3).run w).1 = .exited 0 := by
  let fs : FS := ⟨fun path => if path = [67] then 0 else if path = [80] then 1 else if path = [84] then 2 else 3,
    fun i => if i = 0 then some (.file [255, 1]) else none⟩
  obtain ⟨c, h⟩ := C49_add .debug .release [86] [80] [84] [67] 3 ⟨fs, [], []⟩ [255, 1]
    ⟨rfl, rfl, rfl, rfl, by decide⟩ ⟨['T'], by decide⟩ (by decide) rfl rfl
  exact ⟨⟨fs, [], []⟩, congrArg (·.1.1) h⟩

end PwDiff
