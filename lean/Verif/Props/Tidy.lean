import Verif.Props.Faults
import Verif.Props.Fuzzy
import Verif.Props.Bytes
import Verif.Proofs.NoErr

/-! # C86, C87: everything `pw_patch` does when nothing fails, and what it may leave behind -/

namespace PwDiff

open Sys

/-! ## C86 -/

/-- The content of the file to be changed can be read: text has to be UTF-8. -/
def Diff.CanRead : Diff → List UInt8 → Prop
  | .textChange _, old => IsUtf8 old
  | _, _ => True

/-- Applying the diff to the content panics. -/
def CrashesOn (p : Profile) (rev : Bool) : Diff → List UInt8 → Prop
  | .textChange d, old => ∃ s : Str, s.bytes = old ∧ (applyInto p d.clumps (splitInclusive s) rev).run.1 = .panic
  | .byteChange d, old => (byteApplyInto p d.clumps old rev).run.1 = .panic
  | _, _ => False

/-- What `pw_patch` makes of a file system, and its exit status. -/
inductive Does (p : Profile) (temp patch : Path) (rev : Bool) (fs : FS) : Ended → FS → Prop
  /-- the patch file cannot be read -/
  | noDiff : (∀ d, ¬ HoldsDiff fs patch d) → Does p temp patch rev fs (.exited 1) fs
  /-- the file to be changed cannot be read -/
  | noTarget {d target} : HoldsDiff fs patch d → d.changed = some target →
      (∀ old, fs.contentAt target = some ⟨old, false⟩ → ¬ d.CanRead old) → Does p temp patch rev fs (.exited 1) fs
  /-- the temporary file exists already -/
  | noTemp {d target old} : HoldsDiff fs patch d → d.changed = some target → fs.contentAt target = some ⟨old, false⟩ →
      d.CanRead old → fs.node (fs.entry temp) ≠ none → Does p temp patch rev fs (.exited 1) fs
  /-- applying the diff panics -/
  | crash {d target old} : HoldsDiff fs patch d → d.changed = some target → fs.contentAt target = some ⟨old, false⟩ →
      fs.node (fs.entry temp) = none → CrashesOn p rev d old → Does p temp patch rev fs (.exited 101) fs
  /-- the file is changed -/
  | patched {d target old new} : HoldsDiff fs patch d → d.changed = some target → fs.contentAt target = some ⟨old, false⟩ →
      fs.node (fs.entry temp) = none → PatchedContent p rev d old new →
      Does p temp patch rev fs (.exited 0) (fs.set (fs.entry target) (some (.file new)))
  /-- a file is created -/
  | created {d path content} : HoldsDiff fs patch d → d.creates rev = some (path, content) → fs.node (fs.entry path) = none →
      Does p temp patch rev fs (.exited 0) (fs.set (fs.entry path) (some (.file content)))
  /-- the file to be created exists already -/
  | kept {d path content} : HoldsDiff fs patch d → d.creates rev = some (path, content) → fs.node (fs.entry path) ≠ none →
      Does p temp patch rev fs (.exited 0) fs
  /-- a file is removed -/
  | deleted {d path} : HoldsDiff fs patch d → d.deletes rev = some path → fs.node (fs.entry path) ≠ none →
      fs.node (fs.entry path) ≠ some .dir → Does p temp patch rev fs (.exited 0) (fs.set (fs.entry path) none)
  /-- the file to be removed does not exist, or is a directory -/
  | notDeleted {d path} : HoldsDiff fs patch d → d.deletes rev = some path →
      (fs.node (fs.entry path) = none ∨ fs.node (fs.entry path) = some .dir) → Does p temp patch rev fs (.exited 1) fs

theorem run_of_error {m : Sys Unit} {w w' : World} {e : Ended} (h : m w = (.error e, w')) : m.run w = (e, w') := by
  unfold Sys.run
  rw [h]

theorem bind_exit {α β : Type} {m : Sys α} {f : α → Sys β} {w w' : World} {a : α} {n : Nat} (h : m w = (.ok a, w'))
    (hf : f a = exit n) : (m >>= f) w = (.error (.exited n), w') := by
  rw [bind_ok h, hf]
  rfl

/-- A target that cannot be read. -/
theorem patchFile_unread {α β : Type} {w : World} (hf : w.faults = []) {temp target : Path} {read : Reader → Outcome α}
    {apply : α → WM β} (h : ∀ r, w.fs.contentAt target = some r → read r = .ioErr) :
    patchFile temp target read apply w = (.error (.exited 1), w) := by
  unfold patchFile
  rw [bind_ok (openFile_eq hf target)]
  cases hc : w.fs.contentAt target with
  | none => rfl
  | some r =>
    simp only
    rw [h r hc]
    rfl

/-- The temporary file exists. -/
theorem patchFile_taken {α β : Type} {w : World} (hf : w.faults = []) {temp target : Path} {read : Reader → Outcome α}
    {apply : α → WM β} {r : Reader} {a : α} (hr : w.fs.contentAt target = some r) (ha : read r = .ok a)
    (ht : w.fs.node (w.fs.entry temp) ≠ none) : patchFile temp target read apply w = (.error (.exited 1), w) := by
  unfold patchFile
  rw [bind_ok (openFile_eq hf target), hr]
  simp only
  rw [ha, bind_ok (ofOutcome_ok a w)]
  unfold patchContent
  simp only
  rw [bind_ok (createNew_exists hf ht)]
  rfl

/-- Applying panics. -/
theorem patchFile_panic {α β : Type} {w : World} (hf : w.faults = []) {temp target : Path} {read : Reader → Outcome α}
    {apply : α → WM β} {r : Reader} {a : α} (hr : w.fs.contentAt target = some r) (ha : read r = .ok a)
    (ht : w.fs.node (w.fs.entry temp) = none) (hm : (apply a).run.1 = .panic) :
    patchFile temp target read apply w = (.error (.exited 101), w) := by
  obtain ⟨fs, faults, stdout⟩ := w
  obtain rfl : faults = [] := hf
  simp only at *
  unfold patchFile
  rw [bind_ok (openFile_eq rfl target), hr]
  simp only
  rw [ha, bind_ok (ofOutcome_ok a _)]
  unfold patchContent
  simp only
  rw [bind_ok (createNew_eq rfl ht)]
  simp only
  rw [bind_ok (create_eq (w := ⟨_, [], _⟩) rfl (c := []) (by simp))]
  simp only
  rw [bind_ok (writeFile_eq (w := ⟨_, [], _⟩) rfl _ _)]
  rw [hm]
  simp only [finishPatch, FS.set_set, FS.set_entry]
  unfold dropTemp
  rw [bind_ok (w' := ⟨fs, [], stdout⟩) (a := ())]
  · rfl
  · rw [bind_ok (removeFile_eq (w := ⟨_, [], _⟩) rfl (by simp) (by simp))]
    simp only [FS.set_set, FS.set_entry, FS.set_same fs ht]
    rfl

theorem content_not_failing {fs : FS} {path : Path} {r : Reader} (h : fs.contentAt path = some r) :
    (∃ c, r = ⟨c, false⟩) ∨ r = ⟨[], true⟩ := by
  unfold FS.contentAt at h
  split at h
  · cases h
  · split at h
    · exact .inl ⟨_, (Option.some.inj h).symm⟩
    · exact .inr (Option.some.inj h).symm
    · cases h

/-- What the description says is what the program does. -/
theorem Does.run {p : Profile} {temp patch : Path} {rev : Bool} {w : World} (hf : w.faults = []) {e : Ended} {fs' : FS}
    (h : Does p temp patch rev w.fs e fs') : (pwPatch p temp patch rev).run w = (e, { w with fs := fs' }) := by
  have start : ∀ {d}, HoldsDiff w.fs patch d → pwPatch p temp patch rev w = applyDiff p temp rev d w := by
    rintro d ⟨r, h1, h2⟩
    exact pwPatch_eq hf p temp patch rev h1 h2
  cases h with
  | noDiff h =>
    apply run_of_error
    unfold pwPatch
    rw [bind_ok (openFile_eq hf patch)]
    cases hc : w.fs.contentAt patch with
    | none => rfl
    | some r =>
      simp only
      rw [fromReader_total r fun d hd => h d ⟨r, hc, hd⟩]
      rfl
  | @noTarget d target h1 h2 h3 =>
    apply run_of_error
    rw [start h1]
    have hr : ∀ r, w.fs.contentAt target = some r → r = ⟨[], true⟩ ∨ ∃ c, r = ⟨c, false⟩ ∧ ¬ d.CanRead c := by
      intro r hc
      rcases content_not_failing hc with ⟨c, rfl⟩ | rfl
      · exact .inr ⟨c, rfl, h3 c hc⟩
      · exact .inl rfl
    cases d with
    | textChange d =>
      obtain rfl := Option.some.inj h2
      refine patchFile_unread hf fun r hc => ?_
      rcases hr r hc with rfl | ⟨c, rfl, hn⟩
      · rfl
      · exact readText_not fun ⟨_, hu⟩ => hn hu
    | byteChange d =>
      obtain rfl := Option.some.inj h2
      refine patchFile_unread hf fun r hc => ?_
      rcases hr r hc with rfl | ⟨c, rfl, hn⟩
      · rfl
      · exact absurd trivial hn
    | textAdd d | textRemove d | byteAdd d | byteRemove d => cases h2
  | @noTemp d target old h1 h2 h3 h4 h5 =>
    apply run_of_error
    rw [start h1]
    cases d with
    | textChange d =>
      obtain rfl := Option.some.inj h2
      obtain ⟨s, rfl⟩ := h4
      exact patchFile_taken hf h3 (readText_bytes s) h5
    | byteChange d =>
      obtain rfl := Option.some.inj h2
      exact patchFile_taken hf h3 (readBytes_file old) h5
    | textAdd d | textRemove d | byteAdd d | byteRemove d => cases h2
  | @crash d target old h1 h2 h3 h4 h5 =>
    apply run_of_error
    rw [start h1]
    cases d with
    | textChange d =>
      obtain rfl := Option.some.inj h2
      obtain ⟨s, rfl, h5⟩ := h5
      exact patchFile_panic hf h3 (readText_bytes s) h4 h5
    | byteChange d =>
      obtain rfl := Option.some.inj h2
      exact patchFile_panic hf h3 (readBytes_file old) h4 h5
    | textAdd d | textRemove d | byteAdd d | byteRemove d => cases h2
  | @patched d target old new h1 h2 h3 h4 h5 => exact C46_normal p temp patch target rev w d h1 h2 hf h4 h3 h5
  | @created d path content h1 h2 h3 => exact (C47_normal p temp patch path rev w d h1 hf).1 content h2 h3
  | @kept d path content h1 h2 h3 => exact applyDiff_exists p temp patch path rev w d h1 hf h2 h3
  | @deleted d path h1 h2 h3 h4 => exact (C47_normal p temp patch path rev w d h1 hf).2 h2 h3 h4
  | @notDeleted d path h1 h2 h3 =>
    apply run_of_error
    rw [start h1, applyDiff_deletes p temp h2]
    have : removeFile path w = (.ok false, w) := by
      unfold removeFile
      rw [operation_normal hf]
      simp [h3]
    unfold deleteFile
    rw [bind_ok this]
    rfl

theorem patchFile_diverges {temp : Path} {w : World} (hf : w.faults = []) {α β : Type}
    {target : Path} {read : Reader → Outcome α} {apply : α → WM β} {r : Reader} {a : α} (hr : w.fs.contentAt target = some r)
    (ha : read r = .ok a) (ht : w.fs.node (w.fs.entry temp) = none) (hm : (apply a).run.1 = .diverge) :
    ((patchFile temp target read apply) w).1 = .error .diverged := by
  obtain ⟨fs, faults, stdout⟩ := w
  obtain rfl : faults = [] := hf
  simp only at *
  unfold patchFile
  rw [bind_ok (openFile_eq rfl target), hr]
  simp only
  rw [ha, bind_ok (ofOutcome_ok a _)]
  unfold patchContent
  simp only
  rw [bind_ok (createNew_eq rfl ht)]
  simp only
  rw [bind_ok (create_eq (w := ⟨_, [], _⟩) rfl (c := []) (by simp))]
  simp only
  rw [bind_ok (writeFile_eq (w := ⟨_, [], _⟩) rfl _ _)]
  rw [hm]
  rfl

/-- Applying the diff to the content does not go on for ever. -/
def NotStuck (p : Profile) (rev : Bool) : Diff → List UInt8 → Prop
  | .textChange d, old => ∀ s : Str, s.bytes = old → (applyInto p d.clumps (splitInclusive s) rev).run.1 ≠ .diverge
  | .byteChange d, old => (byteApplyInto p d.clumps old rev).run.1 ≠ .diverge
  | _, _ => True

/-- The description covers every case in which the program ends. -/
theorem Does.covers (p : Profile) (temp patch : Path) (rev : Bool) {w : World}
    (hs : ∀ d target old, HoldsDiff w.fs patch d → d.changed = some target → w.fs.contentAt target = some ⟨old, false⟩ →
      w.fs.node (w.fs.entry temp) = none → NotStuck p rev d old) : ∃ e fs', Does p temp patch rev w.fs e fs' := by
  by_cases h1 : ∃ d, HoldsDiff w.fs patch d
  case neg =>
    exact ⟨_, _, .noDiff fun d h => h1 ⟨d, h⟩⟩
  obtain ⟨d, h1⟩ := h1
  have adds : ∀ path content, d.creates rev = some (path, content) → ∃ e fs', Does p temp patch rev w.fs e fs' := by
    intro path content h2
    by_cases h3 : w.fs.node (w.fs.entry path) = none
    · exact ⟨_, _, .created h1 h2 h3⟩
    · exact ⟨_, _, .kept h1 h2 h3⟩
  have removes : ∀ path, d.deletes rev = some path → ∃ e fs', Does p temp patch rev w.fs e fs' := by
    intro path h2
    by_cases h3 : w.fs.node (w.fs.entry path) = none ∨ w.fs.node (w.fs.entry path) = some .dir
    · exact ⟨_, _, .notDeleted h1 h2 h3⟩
    · exact ⟨_, _, .deleted h1 h2 (fun h => h3 (.inl h)) (fun h => h3 (.inr h))⟩
  have changes : ∀ target, d.changed = some target → (∀ old, d.CanRead old → w.fs.contentAt target = some ⟨old, false⟩ →
      w.fs.node (w.fs.entry temp) = none → ∃ e fs', Does p temp patch rev w.fs e fs') →
      ∃ e fs', Does p temp patch rev w.fs e fs' := by
    intro target h2 h
    by_cases h3 : ∃ old, w.fs.contentAt target = some ⟨old, false⟩ ∧ d.CanRead old
    · obtain ⟨old, h3, h4⟩ := h3
      by_cases h5 : w.fs.node (w.fs.entry temp) = none
      · exact h old h4 h3 h5
      · exact ⟨_, _, .noTemp h1 h2 h3 h4 h5⟩
    · exact ⟨_, _, .noTarget h1 h2 fun old h4 h5 => h3 ⟨old, h4, h5⟩⟩
  cases d with
  | textChange d =>
    refine changes _ rfl fun old h2 h3 h4 => ?_
    obtain ⟨s, rfl⟩ := h2
    have hs := hs _ _ _ h1 rfl h3 h4 s rfl
    have hn := ((applyInto_noErr p d.clumps (splitInclusive s) rev).ne ⟨[], none⟩ rfl).1
    cases hrun : (applyInto p d.clumps (splitInclusive s) rev).run with
    | mk o out =>
      cases o with
      | ok st => exact ⟨_, _, .patched h1 rfl h3 h4 ⟨s, st, rfl, hrun⟩⟩
      | panic => exact ⟨_, _, .crash h1 rfl h3 h4 ⟨s, rfl, by rw [hrun]⟩⟩
      | diverge => exact absurd (by rw [hrun]) hs
      | ioErr => exact absurd (congrArg Prod.fst hrun) hn
  | byteChange d =>
    refine changes _ rfl fun old h2 h3 h4 => ?_
    have hs : (byteApplyInto p d.clumps old rev).run.1 ≠ .diverge := hs _ _ _ h1 rfl h3 h4
    have hn := ((byteApplyInto_noErr p d.clumps old rev).ne ⟨[], none⟩ rfl).1
    cases hrun : (byteApplyInto p d.clumps old rev).run with
    | mk o out =>
      cases o with
      | ok st => exact ⟨_, _, .patched h1 rfl h3 h4 hrun⟩
      | panic => exact ⟨_, _, .crash h1 rfl h3 h4 (by show _ = _; rw [hrun])⟩
      | diverge => exact absurd (by rw [hrun]) hs
      | ioErr => exact absurd (congrArg Prod.fst hrun) hn
  | textAdd d | textRemove d | byteAdd d | byteRemove d =>
    cases rev with
    | false => first | exact adds _ _ rfl | exact removes _ rfl
    | true => first | exact adds _ _ rfl | exact removes _ rfl

theorem notStuck_of_ended {p : Profile} {temp patch target : Path} {rev : Bool} {w : World} (hf : w.faults = [])
    (he : ((pwPatch p temp patch rev).run w).1 ≠ .diverged) {d : Diff} {old : List UInt8} (h1 : HoldsDiff w.fs patch d)
    (h2 : d.changed = some target) (h3 : w.fs.contentAt target = some ⟨old, false⟩)
    (h4 : w.fs.node (w.fs.entry temp) = none) : NotStuck p rev d old := by
  have stuck : ∀ {α β : Type} {target : Path} {read : Reader → Outcome α} {apply : α → WM β} {r : Reader} {a : α},
      applyDiff p temp rev d = patchFile temp target read apply → w.fs.contentAt target = some r → read r = .ok a →
      (apply a).run.1 ≠ .diverge := by
    intro α β target read apply r a e hr ha hm
    apply he
    obtain ⟨r', h1, h1'⟩ := h1
    have := patchFile_diverges hf hr ha h4 hm
    unfold Sys.run
    rw [pwPatch_eq hf p temp patch rev h1 h1', e]
    revert this
    cases patchFile temp target read apply w with
    | mk x y => rintro rfl; rfl
  cases d with
  | textChange d =>
    obtain rfl := Option.some.inj h2
    rintro s rfl
    exact stuck (apply := fun ls => applyInto p d.clumps ls rev) rfl h3 (readText_bytes s)
  | byteChange d =>
    obtain rfl := Option.some.inj h2
    exact stuck (apply := fun bs => byteApplyInto p d.clumps bs rev) rfl h3 (readBytes_file old)
  | textAdd d | textRemove d | byteAdd d | byteRemove d => trivial

/-- When nothing fails, `pw_patch` does exactly what is described, for every patch file (also hand-made ones) and every file
system: nothing besides the file in question changes, no temporary file stays behind, even if the program panics. -/
theorem C86_normal (p : Profile) (temp patch : Path) (rev : Bool) (w : World) (hf : w.faults = []) (e : Ended)
    (he : e ≠ .diverged) (w' : World) :
    (pwPatch p temp patch rev).run w = (e, w') ↔ Does p temp patch rev w.fs e w'.fs ∧ w' = { w with fs := w'.fs } := by
  constructor
  · intro h
    obtain ⟨e', fs', h'⟩ := Does.covers p temp patch rev (w := w)
      (fun d target old => notStuck_of_ended hf (by rw [h]; exact he))
    have := h'.run hf
    rw [h] at this
    obtain ⟨rfl, rfl⟩ := Prod.mk.inj this
    exact ⟨h', rfl⟩
  · rintro ⟨h, h'⟩
    rw [h.run hf, ← h']

/-- The sizes of a diff and of the file it is applied to are reasonable. -/
def Diff.Sized : Diff → List UInt8 → Prop
  | .textChange d, old => (∀ c ∈ d.clumps, c.WellFormed) ∧ ∀ s : Str, s.bytes = old → (splitInclusive s).length + weight d.clumps < sizeLimit
  | .byteChange d, old => old.length + weight d.clumps < wordSize
  | _, _ => True

theorem DiffClump.WellFormed.swapped {T : Type} {c : DiffClump T} (h : c.WellFormed) : c.swap.WellFormed :=
  ⟨h.ctxAfter, h.ctxBefore, h.sizeAfter, h.sizeBefore⟩

theorem weight_swap {T : Type} (cs : List (DiffClump T)) : weight (cs.map DiffClump.swap) = weight cs := by
  induction cs with
  | nil => rfl
  | cons c cs ih =>
    simp only [List.map_cons, weight, ih, DiffClump.swap]
    omega

theorem applyInto_ends (p : Profile) (cs : List (DiffClump Str)) (l : List Str) (rev : Bool) (hw : ∀ c ∈ cs, c.WellFormed)
    (hsz : l.length + weight cs < sizeLimit) : (applyInto p cs l rev).run.1 ≠ .diverge := by
  have key : ∀ cs : List (DiffClump Str), (∀ c ∈ cs, c.WellFormed) → l.length + weight cs < sizeLimit →
      (applyInto p cs l false).run.1 ≠ .diverge := by
    intro cs hw hsz
    obtain ⟨out, r, h1, h2⟩ := applyInto_refines p l cs hw hsz
    rw [h1, WM.run_emit]
    rcases h2.ok_or_panic with ⟨st, h⟩ | h <;> simp only [h] <;> exact nofun
  cases rev with
  | false => exact key cs hw hsz
  | true =>
    have := key (cs.map DiffClump.swap) (by
      intro c hc
      obtain ⟨c, hc', rfl⟩ := List.mem_map.1 hc
      exact (hw c hc').swapped) (by rw [weight_swap]; exact hsz)
    rwa [Swap.applyAll] at this

theorem BytePatching.ends {l : List UInt8} {k : Nat} {cs : List (DiffClump UInt8)} {out : List UInt8} {r : Outcome Unit}
    (h : BytePatching l k cs out r) : r ≠ .diverge := by
  induction h <;> first | assumption | exact nofun

theorem byteApplyInto_ends (p : Profile) (cs : List (DiffClump UInt8)) (l : List UInt8) (rev : Bool)
    (hsz : l.length + weight cs < wordSize) : (byteApplyInto p cs l rev).run.1 ≠ .diverge := by
  have key : ∀ cs : List (DiffClump UInt8), l.length + weight cs < wordSize → (byteApplyInto p cs l false).run.1 ≠ .diverge := by
    intro cs hsz
    exact ((C60_refines p l cs hsz _ _).1 rfl).ends
  cases rev with
  | false => exact key cs hsz
  | true =>
    have := key (cs.map DiffClump.swap) (by rw [weight_swap]; exact hsz)
    rwa [byteApply_swap] at this

/-- With reasonable sizes the program ends. -/
theorem C86_ends (p : Profile) (temp patch : Path) (rev : Bool) (w : World) (hf : w.faults = [])
    (hs : ∀ d target old, HoldsDiff w.fs patch d → d.changed = some target → w.fs.contentAt target = some ⟨old, false⟩ →
      d.Sized old) : ((pwPatch p temp patch rev).run w).1 ≠ .diverged := by
  obtain ⟨e, fs', h⟩ := Does.covers p temp patch rev (w := w) (by
    intro d target old h1 h2 h3 _
    have := hs d target old h1 h2 h3
    cases d with
    | textChange d =>
      rintro s rfl
      exact applyInto_ends p d.clumps _ rev this.1 (this.2 s rfl)
    | byteChange d => exact byteApplyInto_ends p d.clumps old rev this
    | textAdd d | textRemove d | byteAdd d | byteRemove d => trivial)
  rw [h.run hf]
  cases h <;> exact nofun

/-! ## C87 -/

/-- One would expect: unless the process is killed, the temporary file is gone when it ends. -/
def C87_statement : Prop :=
  ∀ (p : Profile) (temp patch : Path) (rev : Bool) (w : World), w.fs.node (w.fs.entry temp) = none →
    ((pwPatch p temp patch rev).run w).1 ≠ .killed →
    ∀ d, HoldsDiff w.fs patch d → d.creates rev = none → ((pwPatch p temp patch rev).run w).2.fs.node (w.fs.entry temp) = none

/-- What applying the diff to the content writes, however it ends. -/
def Diff.written (p : Profile) (rev : Bool) : Diff → List UInt8 → List UInt8 → Prop
  | .textChange d, old, out => ∃ s : Str, s.bytes = old ∧ (applyInto p d.clumps (splitInclusive s) rev).run.2 = out
  | .byteChange d, old, out => (byteApplyInto p d.clumps old rev).run.2 = out
  | _, _, _ => False

/-- The temporary file is not there, or holds an initial part of what was to be written, and then the exit status is not 0. -/
def TempLeft (Out : List UInt8 → Prop) (r : Except Ended Unit) (x : Option Node) : Prop :=
  x = none ∨ (NotDone r ∧ ∃ out n, Out out ∧ x = some (.file (out.take n)))

theorem TempLeft.weaken {P Q : List UInt8 → Prop} {r : Except Ended Unit} {x : Option Node} (h : TempLeft P r x)
    (hpq : ∀ out, P out → Q out) : TempLeft Q r x :=
  h.imp_right fun ⟨h1, out, n, h2, h3⟩ => ⟨h1, out, n, hpq out h2, h3⟩

theorem norm_prefix {β : Type} {m : WM β} (h : WM.Norm m) (n : Nat) : (m ⟨[], some n⟩).2.out = m.run.2.take n := by
  obtain ⟨out, o, rfl⟩ := h
  rw [WM.run_emit, WM.emit_apply]
  simp only
  split
  · next h => simp [List.take_of_length_le h]
  · simp

theorem finishPatch_left {β : Type} (temp patchable : Path) (o : Outcome β) (w : World) (Out : List UInt8 → Prop)
    (hst : w.fs.entry temp ≠ w.fs.entry patchable) {out : List UInt8} {n : Nat} (hout : Out out)
    (ht : w.fs.node (w.fs.entry temp) = some (.file (out.take n))) :
    (finishPatch temp patchable o).Sat w fun r w' => TempLeft Out r (w'.fs.node (w.fs.entry temp)) := by
  have left : ∀ r : Except Ended Unit, NotDone r → TempLeft Out r (w.fs.node (w.fs.entry temp)) :=
    fun r hr => .inr ⟨hr, out, n, hout, ht⟩
  cases o with
  | ioErr => exact sat_exit (left _ (by simp [NotDone]))
  | diverge =>
    show TempLeft Out (.error .diverged) (w.fs.node (w.fs.entry temp))
    exact left _ (by simp [NotDone])
  | panic =>
    apply Sat.bind
    apply sat_dropTemp
    · intro fl
      exact sat_exit (left _ (by simp [NotDone]))
    · intro fl
      exact left _ (by simp [NotDone])
    · intro fl _
      exact sat_exit (.inl (by simp))
  | ok b =>
    apply Sat.bind
    apply sat_rename hst (by rw [ht]; simp)
    · intro fl
      exact sat_exit (left _ (by simp [NotDone]))
    · intro fl
      exact left _ (by simp [NotDone])
    · intro fl _
      simp only [if_true]
      apply sat_dropTemp
      · intro fl'
        exact .inl (by simp)
      · intro fl'
        exact .inl (by simp)
      · intro fl' _
        exact .inl (by simp)

theorem patchContent_left {β : Type} (temp patchable : Path) (m : WM β) (hm : WM.Norm m) (w : World)
    (hex : w.fs.node (w.fs.entry patchable) ≠ none) :
    (patchContent temp patchable m).Sat w fun r w' => w'.fs.node (w.fs.entry temp) = w.fs.node (w.fs.entry temp) ∨
      (w.fs.node (w.fs.entry temp) = none ∧ TempLeft (· = m.run.2) r (w'.fs.node (w.fs.entry temp))) := by
  unfold patchContent
  apply Sat.bind
  apply sat_createNew
  · intro fl
    exact sat_exit (.inl rfl)
  · intro fl
    exact .inl rfl
  · intro fl hs
    have hst : w.fs.entry temp ≠ w.fs.entry patchable := by
      intro e
      rw [e] at hs
      exact hex hs
    have h0 : ∀ r : Except Ended Unit, NotDone r → ∀ x, x = some (.file []) → TempLeft (· = m.run.2) r x :=
      fun r hr x hx => .inr ⟨hr, _, 0, rfl, by simp [hx]⟩
    apply Sat.bind
    apply sat_create (c := []) (by simp)
    · intro fl2
      exact sat_exit (.inr ⟨hs, h0 _ (by simp [NotDone]) _ (by simp)⟩)
    · intro fl2
      exact .inr ⟨hs, h0 _ (by simp [NotDone]) _ (by simp)⟩
    · intro fl2
      apply Sat.bind
      apply sat_writeFile
      · intro fl3
        refine Sat.mono (finishPatch_left temp patchable _ _ (· = m.run.2) hst rfl (n := m.run.2.length) ?_)
          fun r w' h => .inr ⟨hs, h⟩
        simp
      · intro fl3 n
        refine Sat.mono (finishPatch_left temp patchable _ _ (· = m.run.2) hst rfl (n := n) ?_)
          fun r w' h => .inr ⟨hs, h⟩
        simp [norm_prefix hm]
      · intro fl3 n
        exact .inr ⟨hs, .inr ⟨by simp [NotDone], _, n, rfl, by simp⟩⟩

theorem patchFile_left {α β : Type} (temp patchable : Path) (read : Reader → Outcome α) (apply : α → WM β) (w : World)
    (hread : ∀ r a, read r = .ok a → r.fails = false) (hnorm : ∀ a, WM.Norm (apply a)) :
    (patchFile temp patchable read apply).Sat w fun r w' => w'.fs.node (w.fs.entry temp) = w.fs.node (w.fs.entry temp) ∨
      (w.fs.node (w.fs.entry temp) = none ∧ TempLeft (fun out => ∃ rd a, w.fs.contentAt patchable = some rd ∧ read rd = .ok a ∧
        out = (apply a).run.2) r (w'.fs.node (w.fs.entry temp))) := by
  have rest : ∀ (rd : Reader) fl, (rd.fails = false → w.fs.contentAt patchable = some rd) →
      (do
        let some content ← ofOutcome (read rd) | exit 1
        patchContent temp patchable (apply content) : Sys Unit).Sat { w with faults := fl } fun r w' =>
      w'.fs.node (w.fs.entry temp) = w.fs.node (w.fs.entry temp) ∨
      (w.fs.node (w.fs.entry temp) = none ∧ TempLeft (fun out => ∃ rd a, w.fs.contentAt patchable = some rd ∧ read rd = .ok a ∧
        out = (apply a).run.2) r (w'.fs.node (w.fs.entry temp))) := by
    intro rd fl ho
    apply Sat.bind
    cases hr : read rd with
    | ioErr => exact .inl rfl
    | panic => exact .inl rfl
    | diverge => exact .inl rfl
    | ok a =>
      have hc := ho (hread rd a hr)
      have hex : w.fs.node (w.fs.entry patchable) ≠ none := by
        have := FS.entry_some_of_content hc
        intro e
        rw [e] at this
        simp at this
      have : (patchContent temp patchable (apply a)).Sat { w with faults := fl } fun r w' =>
          w'.fs.node (w.fs.entry temp) = w.fs.node (w.fs.entry temp) ∨
          (w.fs.node (w.fs.entry temp) = none ∧ TempLeft (fun out => ∃ rd a, w.fs.contentAt patchable = some rd ∧ read rd = .ok a ∧
            out = (apply a).run.2) r (w'.fs.node (w.fs.entry temp))) :=
        (patchContent_left temp patchable (apply a) (hnorm a) { w with faults := fl } hex).mono fun r w' h =>
          h.imp_right fun ⟨h1, h2⟩ => ⟨h1, h2.weaken fun out e => ⟨rd, a, hc, hr, e⟩⟩
      exact this
  unfold patchFile
  apply Sat.bind
  apply sat_openFile
  · intro fl _
    exact sat_exit (.inl rfl)
  · intro fl
    exact .inl rfl
  · intro fl r hr
    exact rest r fl (by simp [hr])
  · intro fl r hr
    exact rest r fl (fun _ => hr)

/-- Whatever fails, wherever the process is killed: an existing file at the temporary file's place is left alone; if there was
none, there is none afterwards either or one holding an initial part of what was to be written, and then the exit status is
not 0. -/
theorem C87_partial (p : Profile) (temp patch target : Path) (rev : Bool) (w : World) (d : Diff) (hp : HoldsDiff w.fs patch d)
    (ht : d.changed = some target) :
    let (ended, w') := (pwPatch p temp patch rev).run w
    w'.fs.node (w.fs.entry temp) = w.fs.node (w.fs.entry temp) ∨
    (w.fs.node (w.fs.entry temp) = none ∧ ended ≠ .exited 0 ∧ ∃ old out n, w.fs.contentAt target = some ⟨old, false⟩ ∧
      d.written p rev old out ∧ w'.fs.node (w.fs.entry temp) = some (.file (out.take n))) := by
  let Out (out : List UInt8) : Prop := ∃ old, w.fs.contentAt target = some ⟨old, false⟩ ∧ d.written p rev old out
  have main : (pwPatch p temp patch rev).Sat w fun r w' => w'.fs.node (w.fs.entry temp) = w.fs.node (w.fs.entry temp) ∨
      (w.fs.node (w.fs.entry temp) = none ∧ TempLeft Out r (w'.fs.node (w.fs.entry temp))) := by
    refine pwPatch_sat p temp patch rev hp ?_ (fun fl => .inl rfl) (fun fl => .inl rfl)
    intro fl
    cases d with
    | textChange d =>
      obtain rfl := Option.some.inj ht
      refine (patchFile_left temp d.beforePath readText _ { w with faults := fl } ?_ ?_).mono fun r w' h =>
        h.imp_right fun ⟨h1, h2⟩ => ⟨h1, h2.weaken ?_⟩
      · intro r a h
        exact ((readText_eq_ok_iff r a).1 h).1
      · intro a
        exact norm_applyInto ..
      · rintro out ⟨rd, a, e1, e2, rfl⟩
        obtain ⟨s, rfl, rfl⟩ := readText_content e2
        exact ⟨_, e1, s, rfl, rfl⟩
    | byteChange d =>
      obtain rfl := Option.some.inj ht
      have hrb : ∀ (r : Reader) a, readBytes r = .ok a → r = ⟨a, false⟩ := by
        rintro ⟨data, fails⟩ a h
        cases fails with
        | true => cases h
        | false => cases h; rfl
      refine (patchFile_left temp d.beforePath readBytes _ { w with faults := fl } ?_ ?_).mono fun r w' h =>
        h.imp_right fun ⟨h1, h2⟩ => ⟨h1, h2.weaken ?_⟩
      · intro r a h
        rw [hrb r a h]
      · intro a
        exact norm_byteApplyInto ..
      · rintro out ⟨rd, a, e1, e2, rfl⟩
        rw [hrb rd a e2] at e1
        exact ⟨a, e1, rfl⟩
    | textAdd d | textRemove d | byteAdd d | byteRemove d => cases ht
  refine run_eq (Q := fun ended w' => w'.fs.node (w.fs.entry temp) = w.fs.node (w.fs.entry temp) ∨
    (w.fs.node (w.fs.entry temp) = none ∧ ended ≠ .exited 0 ∧ ∃ old out n, w.fs.contentAt target = some ⟨old, false⟩ ∧
      d.written p rev old out ∧ w'.fs.node (w.fs.entry temp) = some (.file (out.take n)))) (main.mono ?_)
  rintro r w' h
  rcases h with h | ⟨h, h' | ⟨hd, out, n, ⟨old, h1, h2⟩, h3⟩⟩
  · cases r <;> exact .inl h
  · rw [← h'] at h
    cases r <;> exact .inl h.symm
  · cases r with
    | ok u => exact absurd rfl hd.1
    | error e =>
      refine .inr ⟨h, ?_, old, out, n, h1, h2, h3⟩
      rintro rfl
      exact hd.2 rfl

theorem operation_none {α : Type} {normal : World → α × World} {failing : Nat → World → α × World} {killed : Nat → World → World}
    {fs : FS} {fl : List Fault} {out : List UInt8} :
    operation normal failing killed ⟨fs, .none :: fl, out⟩ = (.ok (normal ⟨fs, fl, out⟩).1, (normal ⟨fs, fl, out⟩).2) := rfl

/-- If writing fails, what has been written of the temporary file stays behind. -/
theorem patchFile_writeFails {α β : Type} {fs : FS} {out : List UInt8} {temp target : Path} {read : Reader → Outcome α}
    {apply : α → WM β} {r : Reader} {a : α} {n : Nat} (hr : fs.contentAt target = some r) (ha : read r = .ok a)
    (ht : fs.node (fs.entry temp) = none) (hm : WM.Norm (apply a)) (hn : n < (apply a).run.2.length) :
    patchFile temp target read apply ⟨fs, [.none, .none, .none, .fail n], out⟩ =
      (.error (.exited 1), ⟨fs.set (fs.entry temp) (some (.file ((apply a).run.2.take n))), [], out⟩) := by
  unfold patchFile
  rw [bind_ok (show openFile target _ = (.ok (some r), ⟨fs, [.none, .none, .fail n], out⟩) by
    unfold openFile; rw [operation_none, hr])]
  simp only
  rw [ha, bind_ok (ofOutcome_ok a _)]
  unfold patchContent
  simp only
  rw [bind_ok (show createNew temp ⟨fs, [.none, .none, .fail n], out⟩ = (.ok (some (fs.entry temp)),
      ⟨fs.set (fs.entry temp) (some (.file [])), [.none, .fail n], out⟩) by
    unfold createNew; rw [operation_none]; simp [ht])]
  simp only
  rw [bind_ok (show create temp ⟨fs.set (fs.entry temp) (some (.file [])), [.none, .fail n], out⟩ = (.ok (some (fs.entry temp)),
      ⟨fs.set (fs.entry temp) (some (.file [])), [.fail n], out⟩) by
    unfold create
    rw [operation_none]
    have hfo : (fs.set (fs.entry temp) (some (.file []))).follow temp = some (fs.entry temp) := by
      unfold FS.follow FS.followFrom
      simp
    simp [hfo, FS.set_set])]
  simp only
  rw [bind_ok (show writeFile (fs.entry temp) (apply a) ⟨fs.set (fs.entry temp) (some (.file [])), [.fail n], out⟩ = (.ok .ioErr,
      ⟨fs.set (fs.entry temp) (some (.file ((apply a).run.2.take n))), [], out⟩) by
    unfold writeFile operation
    simp only [FS.set_set, norm_prefix hm]
    obtain ⟨o, r, e⟩ := hm
    rw [e, WM.run_emit] at hn
    rw [e, WM.emit_apply]
    simp only at hn ⊢
    rw [if_neg (by omega)])]
  rfl

/-- For every diff that changes a file: if writing the temporary file fails, it stays behind, with what has been written. -/
theorem C87_left (p : Profile) (temp patch target : Path) (rev : Bool) (fs : FS) (stdout : List UInt8) (d : Diff)
    (hp : HoldsDiff fs patch d) (ht : d.changed = some target) {old out : List UInt8}
    (hold : fs.contentAt target = some ⟨old, false⟩) (hfree : fs.node (fs.entry temp) = none) (hw : d.written p rev old out)
    (n : Nat) (hn : n < out.length) :
    (pwPatch p temp patch rev).run ⟨fs, [.none, .none, .none, .none, .fail n], stdout⟩ =
      (.exited 1, ⟨fs.set (fs.entry temp) (some (.file (out.take n))), [], stdout⟩) := by
  apply run_of_error
  obtain ⟨r, hr, hd⟩ := hp
  unfold pwPatch
  rw [bind_ok (show openFile patch _ = (.ok (some r), ⟨fs, [.none, .none, .none, .fail n], stdout⟩) by
    unfold openFile; rw [operation_none, hr])]
  simp only
  rw [hd, bind_ok (ofOutcome_ok d _)]
  cases d with
  | textChange d =>
    obtain rfl := Option.some.inj ht
    obtain ⟨s, rfl, rfl⟩ := hw
    exact patchFile_writeFails hold (readText_bytes s) hfree (norm_applyInto ..) hn
  | byteChange d =>
    obtain rfl := Option.some.inj ht
    cases hw
    exact patchFile_writeFails hold (readBytes_file old) hfree (norm_byteApplyInto ..) hn
  | textAdd d | textRemove d | byteAdd d | byteRemove d => cases ht

theorem exampleFS_facts : exampleFS.contentAt [65] = some ⟨[1, 2, 3], false⟩ ∧ exampleFS.node (exampleFS.entry [84]) = none := by
  obtain ⟨e1, e2, e3, e3', e4, e5, e6, e6', e7, e8⟩ := FS.ofFiles_two [1, 2, 3] exampleDiff.fileContent
  exact ⟨e7, by rw [show exampleFS = FS.ofFiles [([65], [1, 2, 3]), ([67], exampleDiff.fileContent)] from rfl, e3, e6']⟩

/-- It fails if writing fails. -/
theorem C87_refuted : ¬ C87_statement := by
  intro h
  obtain ⟨h1, h2⟩ := exampleFS_facts
  have e := C87_left .debug [84] [67] [65] false exampleFS [] exampleDiff exampleDiff_held rfl h1 h2
    (out := [1, 7, 8, 3]) (by show _ = _; decide +kernel) 2 (by decide)
  have := h .debug [84] [67] false ⟨exampleFS, [.none, .none, .none, .none, .fail 2], []⟩ h2 (by rw [e]; exact nofun)
    exampleDiff exampleDiff_held rfl
  rw [e] at this
  simp at this

/-- A run in which everything works and one in which the target is not there. -/
example : Does .debug [84] [67] false exampleFS (.exited 0) (exampleFS.set (exampleFS.entry [65]) (some (.file [1, 7, 8, 3]))) :=
  .patched exampleDiff_held rfl exampleFS_facts.1 exampleFS_facts.2 (by show _ = _; decide +kernel)
example : Does .debug [84] [99] false exampleFS (.exited 1) exampleFS :=
  .noDiff fun d ⟨r, h, _⟩ => by
    obtain ⟨e1, e2, e3, e3', e4, e5, e6, e6', e7, e8⟩ := FS.ofFiles_two [1, 2, 3] exampleDiff.fileContent
    have : exampleFS.contentAt [99] = none := rfl
    rw [this] at h
    cases h

example (w' : World) := C86_normal .debug [84] [67] false ⟨exampleFS, [], []⟩ rfl (.exited 0) nofun w'
example (fs : FS) (h : HoldsDiff fs [67] exampleDiff) :=
  C87_partial .debug [84] [67] [65] false ⟨fs, [.none, .none, .none, .none, .fail 2], []⟩ exampleDiff h rfl
example := C87_left .debug [84] [67] [65] false exampleFS [] exampleDiff exampleDiff_held rfl exampleFS_facts.1 exampleFS_facts.2
    (out := [1, 7, 8, 3]) (by show _ = _; decide +kernel) 2 (by decide)

end PwDiff
