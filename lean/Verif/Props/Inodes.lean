import Verif.Proofs.Inodes
import Verif.Props.Logging
import Verif.Props.Tidy

/-! # C117–C119: names and permissions of files -/

namespace PwDiff

/-- A run on a disk and the run on the file system that belongs to it, with what is known afterwards. -/
theorem run_pwPatch (p : Profile) (temp patch : Path) (rev : Bool) (w : DiskWorld) (hs : w.disk.Sound) :
    let r := (OnDisk.pwPatch p temp patch rev).run w
    (pwPatch p temp patch rev).run w.flat = (r.1, r.2.flat) ∧
    AfterRun temp patch w.disk (decide (r.1 = .exited 0)) r.2.disk := by
  simp only
  rcases sim_pwPatch p temp patch rev w.disk hs w rfl with ⟨a, b, w1, e1, e2, h⟩ | ⟨e, w1, e1, e2, h, h'⟩
  · simp only [DiskSys.run, Sys.run, e1, e2]
    exact ⟨trivial, by simpa using h⟩
  · simp only [DiskSys.run, Sys.run, e1, e2]
    exact ⟨trivial, by simpa [h] using h'⟩

/-! ## C117 -/

/-- With files that have several names and permissions `pw_patch` does the same to the contents of the directory entries as on the
simpler file system of `Model/Programs`: everything proved there about contents, exit status and output holds here too. -/
theorem C117_same (p : Profile) (temp patch : Path) (rev : Bool) (w : DiskWorld) (hs : w.disk.Sound) :
    (pwPatch p temp patch rev).run w.flat =
      (((OnDisk.pwPatch p temp patch rev).run w).1, ((OnDisk.pwPatch p temp patch rev).run w).2.flat) :=
  (run_pwPatch p temp patch rev w hs).1

/-- Whatever the patch file is, whatever operation fails, wherever the process is killed: no file that exists is written to, and
its permissions are not changed either.  (So who has opened a file goes on reading what was in it.) -/
theorem C117_files (p : Profile) (temp patch : Path) (rev : Bool) (w : DiskWorld) (hs : w.disk.Sound) :
    let w' := ((OnDisk.pwPatch p temp patch rev).run w).2
    ∀ n, n < w.disk.fresh → w'.disk.inode n = w.disk.inode n := by
  intro w' n hn
  rcases (run_pwPatch p temp patch rev w hs).2 with ⟨h, -⟩ | ⟨diff, -, h, -⟩
  · show w'.disk.inode n = _
    rw [show w'.disk = w.disk from h]
  · exact h.old n hn

/-- And no name refers to another file than before, except the one given in the patch and that of the temporary file, if nothing
had this name. -/
theorem C117_names (p : Profile) (temp patch : Path) (rev : Bool) (w : DiskWorld) (hs : w.disk.Sound) (diff : Diff)
    (hp : HoldsDiff w.disk.flat patch diff) :
    let w' := ((OnDisk.pwPatch p temp patch rev).run w).2
    w'.disk.entry = w.disk.entry ∧
    ∀ i, i ≠ w.disk.entry diff.about → (i = w.disk.entry temp → w.disk.name i ≠ none) → w'.disk.name i = w.disk.name i := by
  intro w'
  rcases (run_pwPatch p temp patch rev w hs).2 with ⟨h, -⟩ | ⟨diff', hd, h, -⟩
  · rw [show w'.disk = w.disk from h]
    exact ⟨rfl, fun _ _ _ => rfl⟩
  · obtain rfl := hd.unique hp
    refine ⟨h.entry, fun i h1 h2 => h.others i ?_⟩
    rintro (h3 | ⟨-, h3, h4⟩)
    · exact h1 h3
    · exact h2 h3 h4

/-! ## C118 -/

/-- What one may expect: if the file to be changed has another name, the change can be seen under that name. -/
def C118_statement : Prop :=
  ∀ (p : Profile) (temp patch target other : Path) (rev : Bool) (w : DiskWorld) (diff : Diff) (n : Nat), w.disk.Sound →
    HoldsDiff w.disk.flat patch diff → diff.changed = some target →
    w.disk.name (w.disk.entry target) = some (.file n) → w.disk.name (w.disk.entry other) = some (.file n) →
    let r := (OnDisk.pwPatch p temp patch rev).run w
    r.1 = .exited 0 → r.2.disk.contentAt other = r.2.disk.contentAt target

/-- What happens, also if operations fail: after exit status 0 the name given in the patch refers to a new file, with the patched
content, to which no other name refers.  All other names refer to what they referred to, and the old file is as it was. -/
theorem C118_partial (p : Profile) (temp patch target : Path) (rev : Bool) (w : DiskWorld) (hs : w.disk.Sound) (diff : Diff)
    (hp : HoldsDiff w.disk.flat patch diff) (ht : diff.changed = some target) :
    let r := (OnDisk.pwPatch p temp patch rev).run w
    r.1 = .exited 0 →
    (∃ n old, w.disk.fresh ≤ n ∧ r.2.disk.name (w.disk.entry target) = some (.file n) ∧
      w.disk.contentAt target = some ⟨old, false⟩ ∧ PatchedContent p rev diff old (r.2.disk.inode n).content) ∧
    (∀ i, i ≠ w.disk.entry target → r.2.disk.name i = w.disk.name i) ∧
    ∀ n, n < w.disk.fresh → r.2.disk.inode n = w.disk.inode n := by
  have hfiles := C117_files p temp patch rev w hs
  have hflat := C117_same p temp patch rev w hs
  have hatom := C46_atomic p temp patch target rev w.flat diff hp ht
  have hleft := C87_partial p temp patch target rev w.flat diff hp ht
  rw [hflat] at hatom hleft
  have hrun := (run_pwPatch p temp patch rev w hs).2
  simp only at hfiles hrun
  revert hfiles hatom hleft hrun
  generalize (OnDisk.pwPatch p temp patch rev).run w = r
  obtain ⟨ended, w'⟩ := r
  intro hfiles hatom hleft hrun
  simp only at hfiles hatom hrun hleft ⊢
  rintro rfl
  rcases hrun with ⟨-, h⟩ | ⟨diff', hd, h, hnew⟩
  · simp at h
  obtain rfl := hd.unique hp
  have habout : diff'.about = target := by cases diff' <;> simp_all [Diff.changed, Diff.about]
  obtain ⟨n, hn, hname⟩ := hnew (by simp) target ht
  refine ⟨?_, ?_, hfiles⟩
  · rcases hatom.2.2.2 with ⟨-, h⟩ | ⟨-, old, new, h1, h2, h3⟩
    · exact absurd rfl h
    · refine ⟨n, old, hn, hname, ?_, ?_⟩
      · rw [← Disk.flat_contentAt]; exact h1
      · have h3 : w'.disk.flat.node (w.disk.entry target) = some (.file new) := h3
        rw [Disk.flat_node, hname] at h3
        simp only [Option.map_some, Disk.nodeOf, Option.some.injEq, Node.file.injEq] at h3
        rw [h3]; exact h2
  · intro i hi
    by_cases h2 : i = w.disk.entry temp ∧ w.disk.name i = none
    · rcases hleft with h | ⟨-, h, -⟩
      · obtain ⟨rfl, h2⟩ := h2
        have h : w'.disk.flat.node (w.disk.entry temp) = w.disk.flat.node (w.disk.entry temp) := h
        rw [h2, ← Disk.flat_isNone, h, Disk.flat_isNone, h2]
      · exact absurd rfl h
    · refine h.others i ?_
      rintro (h3 | ⟨-, h3, h4⟩)
      · exact hi (habout ▸ h3)
      · exact h2 ⟨h3, h4⟩

/-- So another name of the file shows the old content. -/
theorem C118_apart (p : Profile) (temp patch target other : Path) (rev : Bool) (w : DiskWorld) (hs : w.disk.Sound) (diff : Diff)
    (hp : HoldsDiff w.disk.flat patch diff) (ht : diff.changed = some target) (n : Nat)
    (ho : w.disk.name (w.disk.entry other) = some (.file n)) (hne : w.disk.entry other ≠ w.disk.entry target) :
    let r := (OnDisk.pwPatch p temp patch rev).run w
    r.1 = .exited 0 → r.2.disk.contentAt other = w.disk.contentAt other ∧
      ∃ old new, w.disk.contentAt target = some ⟨old, false⟩ ∧ PatchedContent p rev diff old new ∧
        r.2.disk.contentAt target = some ⟨new, false⟩ := by
  have h := C118_partial p temp patch target rev w hs diff hp ht
  have he := (C117_names p temp patch rev w hs diff hp).1
  revert h he
  generalize (OnDisk.pwPatch p temp patch rev).run w = r
  obtain ⟨ended, w'⟩ := r
  intro h he
  simp only at h he ⊢
  intro h0
  obtain ⟨⟨m, old, h1, h2, h3, h4⟩, h5, h6⟩ := h h0
  have plain : ∀ (d : Disk) (path : Path) k, d.name (d.entry path) = some (.file k) →
      d.contentAt path = some ⟨(d.inode k).content, false⟩ := by
    intro d path k hk
    rw [Disk.contentAt, Disk.follow_file hk]
    simp only [hk]
  constructor
  · rw [plain _ _ n ho, plain _ _ n (by rw [he, h5 _ hne, ho]), h6 n (hs _ _ ho)]
  · exact ⟨old, _, h3, h4, plain _ _ m (by rw [he, h2])⟩

/-- And if the name given in the patch is that of a symbolic link, the link is replaced by a file; the file it led to is as before. -/
theorem C118_link (p : Profile) (temp patch target : Path) (rev : Bool) (w : DiskWorld) (hs : w.disk.Sound) (diff : Diff)
    (hp : HoldsDiff w.disk.flat patch diff) (ht : diff.changed = some target) (j n : Nat)
    (hl : w.disk.name (w.disk.entry target) = some (.link j)) (hj : w.disk.name j = some (.file n)) :
    let r := (OnDisk.pwPatch p temp patch rev).run w
    r.1 = .exited 0 → (∃ m, n ≠ m ∧ r.2.disk.name (w.disk.entry target) = some (.file m)) ∧ r.2.disk.name j = some (.file n) ∧
      r.2.disk.inode n = w.disk.inode n := by
  intro r h0
  obtain ⟨⟨m, old, h1, h2, -, -⟩, h5, h6⟩ := C118_partial p temp patch target rev w hs diff hp ht h0
  have hn := hs _ _ hj
  refine ⟨⟨m, by omega, h2⟩, ?_, h6 n hn⟩
  rw [h5 j, hj]
  rintro rfl
  rw [hl] at hj
  cases hj

/-- A disk on which the file `A` of three bytes also has the name `H` and a symbolic link `S` leads to it, with a patch `C`. -/
def exampleDisk : Disk where
  entry path := if path = [65] then 0 else if path = [72] then 1 else if path = [67] then 2 else if path = [83] then 3 else 4
  name i := if i = 0 then some (.file 0) else if i = 1 then some (.file 0) else if i = 2 then some (.file 1)
    else if i = 3 then some (.link 0) else none
  inode n := if n = 0 then ⟨[1, 2, 3], 493⟩ else if n = 1 then ⟨exampleDiff.fileContent, 420⟩ else ⟨[], 0⟩
  fresh := 2
  tempMode := 384
  newMode := 420

theorem exampleDisk_sound : exampleDisk.Sound := by
  intro i n h
  simp only [exampleDisk] at h ⊢
  repeat' split at h
  all_goals simp_all
  all_goals omega

theorem exampleDisk_held : HoldsDiff exampleDisk.flat [67] exampleDiff := by
  obtain ⟨r, h1, h2⟩ := exampleDiff_held
  exact ⟨r, (show _ from rfl : exampleDisk.flat.contentAt [67] = exampleFS.contentAt [67]).trans h1, h2⟩

/-- The patch is applied. -/
theorem exampleDisk_run : ((OnDisk.pwPatch .release [84] [67] false).run ⟨exampleDisk, [], []⟩).1 = .exited 0 := by
  have h := C46_normal .release [84] [67] [65] false (DiskWorld.flat ⟨exampleDisk, [], []⟩) exampleDiff exampleDisk_held rfl rfl rfl
    (old := [1, 2, 3]) (new := [1, 7, 8, 3]) rfl (by show (byteApplyInto _ _ _ _).run = _; decide +kernel)
  rw [C117_same _ _ _ _ _ exampleDisk_sound] at h
  exact (Prod.mk.inj h).1

theorem C118_refuted : ¬ C118_statement := by
  intro h
  have h1 := h .release [84] [67] [65] [72] false ⟨exampleDisk, [], []⟩ exampleDiff 0 exampleDisk_sound exampleDisk_held rfl rfl rfl
    exampleDisk_run
  obtain ⟨h2, old, new, h3, h4, h5⟩ := C118_apart .release [84] [67] [65] [72] false ⟨exampleDisk, [], []⟩ exampleDisk_sound exampleDiff
    exampleDisk_held rfl 0 rfl (by decide) exampleDisk_run
  rw [h2, h5, show exampleDisk.contentAt [72] = some ⟨[1, 2, 3], false⟩ from rfl] at h1
  rw [show exampleDisk.contentAt [65] = some ⟨[1, 2, 3], false⟩ from rfl] at h3
  obtain rfl : [1, 2, 3] = old := by simpa using h3
  obtain rfl : [1, 2, 3] = new := by simpa using h1
  revert h4
  show ¬ (byteApplyInto _ _ _ _).run = _
  decide +kernel

/-- The patch is for the symbolic link. -/
def exampleLink : Disk := { exampleDisk with
  entry := fun path => if path = [65] then 3 else if path = [83] then 0 else exampleDisk.entry path }

theorem exampleLink_held : HoldsDiff exampleLink.flat [67] exampleDiff := by
  obtain ⟨r, h1, h2⟩ := exampleDiff_held
  exact ⟨r, (show _ from rfl : exampleLink.flat.contentAt [67] = exampleFS.contentAt [67]).trans h1, h2⟩

theorem exampleLink_run : ((OnDisk.pwPatch .release [84] [67] false).run ⟨exampleLink, [], []⟩).1 = .exited 0 := by
  have h := C46_normal .release [84] [67] [65] false (DiskWorld.flat ⟨exampleLink, [], []⟩) exampleDiff exampleLink_held rfl rfl rfl
    (old := [1, 2, 3]) (new := [1, 7, 8, 3]) rfl (by show (byteApplyInto _ _ _ _).run = _; decide +kernel)
  rw [C117_same _ _ _ _ _ exampleDisk_sound] at h
  exact (Prod.mk.inj h).1

/-- `C118_link` applies. -/
example : ∃ m, 0 ≠ m ∧ ((OnDisk.pwPatch .release [84] [67] false).run ⟨exampleLink, [], []⟩).2.disk.name 3 = some (.file m) := by
  have h := C118_link .release [84] [67] [65] false ⟨exampleLink, [], []⟩ exampleDisk_sound exampleDiff exampleLink_held rfl 0 0 rfl rfl
  revert h
  have h0 := exampleLink_run
  revert h0
  generalize (OnDisk.pwPatch .release [84] [67] false).run ⟨exampleLink, [], []⟩ = r
  exact fun h0 h => (h h0).1

/-! ## C119 -/

/-- What one may expect: a patched file has the permissions of the file it was made from. -/
def C119_statement : Prop :=
  ∀ (p : Profile) (temp patch target : Path) (rev : Bool) (w : DiskWorld) (diff : Diff) (n : Nat), w.disk.Sound →
    HoldsDiff w.disk.flat patch diff → diff.changed = some target → w.disk.name (w.disk.entry target) = some (.file n) →
    let r := (OnDisk.pwPatch p temp patch rev).run w
    r.1 = .exited 0 → ∃ m, r.2.disk.name (w.disk.entry target) = some (.file m) ∧ (r.2.disk.inode m).mode = (w.disk.inode n).mode

/-- What happens, also if operations fail: the patched file has the permissions of a new temporary file. -/
theorem C119_partial (p : Profile) (temp patch target : Path) (rev : Bool) (w : DiskWorld) (hs : w.disk.Sound) (diff : Diff)
    (hp : HoldsDiff w.disk.flat patch diff) (ht : diff.changed = some target) :
    let r := (OnDisk.pwPatch p temp patch rev).run w
    r.1 = .exited 0 → ∃ m, r.2.disk.name (w.disk.entry target) = some (.file m) ∧ (r.2.disk.inode m).mode = w.disk.tempMode := by
  have hrun := (run_pwPatch p temp patch rev w hs).2
  revert hrun
  generalize (OnDisk.pwPatch p temp patch rev).run w = r
  obtain ⟨ended, w'⟩ := r
  intro hrun
  simp only at hrun ⊢
  rintro rfl
  rcases hrun with ⟨-, h⟩ | ⟨diff', hd, h, hnew⟩
  · simp at h
  obtain rfl := hd.unique hp
  obtain ⟨n, hn, hname⟩ := hnew (by simp) target ht
  refine ⟨n, hname, ?_⟩
  rw [h.new n hn (h.sound _ _ hname), modeFor, ht]
  rfl

/-- So the permissions are kept exactly if they are those of a temporary file. -/
theorem C119_exact (p : Profile) (temp patch target : Path) (rev : Bool) (w : DiskWorld) (hs : w.disk.Sound) (diff : Diff)
    (hp : HoldsDiff w.disk.flat patch diff) (ht : diff.changed = some target) (n : Nat) :
    let r := (OnDisk.pwPatch p temp patch rev).run w
    r.1 = .exited 0 →
      ((∃ m, r.2.disk.name (w.disk.entry target) = some (.file m) ∧ (r.2.disk.inode m).mode = (w.disk.inode n).mode) ↔
        (w.disk.inode n).mode = w.disk.tempMode) := by
  have h := C119_partial p temp patch target rev w hs diff hp ht
  revert h
  generalize (OnDisk.pwPatch p temp patch rev).run w = r
  obtain ⟨ended, w'⟩ := r
  intro h
  simp only at h ⊢
  intro h0
  obtain ⟨m, h1, h2⟩ := h h0
  constructor
  · rintro ⟨m', h3, h4⟩
    have h3 := h1.symm.trans h3
    simp only [Option.some.injEq, Name.file.injEq] at h3
    subst h3
    rw [← h4, h2]
  · intro he
    exact ⟨m, h1, by rw [h2, he]⟩

theorem C119_refuted : ¬ C119_statement := by
  intro h
  have h1 := h .release [84] [67] [65] false ⟨exampleDisk, [], []⟩ exampleDiff 0 exampleDisk_sound exampleDisk_held rfl rfl
    exampleDisk_run
  have h2 := (C119_exact .release [84] [67] [65] false ⟨exampleDisk, [], []⟩ exampleDisk_sound exampleDiff exampleDisk_held rfl 0
    exampleDisk_run).1 h1
  revert h2
  decide

/-- A file that is created gets the permissions of a new file, also when this restores a file that had been removed. -/
theorem C119_created (p : Profile) (temp patch path : Path) (content : List UInt8) (rev : Bool) (w : DiskWorld) (hs : w.disk.Sound)
    (hf : w.faults = []) (diff : Diff) (hp : HoldsDiff w.disk.flat patch diff) (hc : diff.creates rev = some (path, content))
    (hn : w.disk.name (w.disk.entry path) = none) :
    let r := (OnDisk.pwPatch p temp patch rev).run w
    r.1 = .exited 0 ∧ ∃ m, r.2.disk.name (w.disk.entry path) = some (.file m) ∧ r.2.disk.inode m = ⟨content, w.disk.newMode⟩ := by
  have hflat := C117_same p temp patch rev w hs
  have hrun := (run_pwPatch p temp patch rev w hs).2
  have hdoes := (C86_normal p temp patch rev w.flat hf (.exited 0) nofun
    { w.flat with fs := w.flat.fs.set (w.flat.fs.entry path) (some (.file content)) }).2
    ⟨.created hp hc ((Disk.flat_isNone ..).2 hn), rfl⟩
  rw [hflat] at hdoes
  revert hdoes hrun
  generalize (OnDisk.pwPatch p temp patch rev).run w = r
  obtain ⟨ended, w'⟩ := r
  intro hrun hdoes
  simp only [Prod.mk.injEq] at hdoes hrun ⊢
  obtain ⟨rfl, hdoes⟩ := hdoes
  refine ⟨rfl, ?_⟩
  have hnode : w'.disk.flat.node (w.disk.entry path) = some (.file content) := by
    have : w'.flat.fs = _ := congrArg World.fs hdoes
    rw [show w'.disk.flat = w'.flat.fs from rfl, this]
    simp [FS.set, DiskWorld.flat]
  rw [Disk.flat_node] at hnode
  rcases hrun with ⟨-, h⟩ | ⟨diff', hd, h, -⟩
  · simp at h
  obtain rfl := hd.unique hp
  rcases h.names (w.disk.entry path) with h1 | h1 | ⟨m, h1, h2⟩
  · rw [h1, hn] at hnode; cases hnode
  · rw [h1] at hnode; cases hnode
  · refine ⟨m, h2, ?_⟩
    have hm := h.new m h1 (h.sound _ _ h2)
    rw [h2] at hnode
    simp only [Option.map_some, Disk.nodeOf, Option.some.injEq, Node.file.injEq] at hnode
    have hmode : modeFor w.disk diff' = w.disk.newMode := by
      cases diff' <;> first | rfl | (simp [Diff.creates] at hc)
    rw [hmode] at hm
    cases hi : w'.disk.inode m with
    | mk c md => simp_all

/-- A disk on which a patch creates a file. -/
example : ∃ (d : Disk) (diff : Diff), d.Sound ∧ HoldsDiff d.flat [67] diff ∧ diff.creates false = some ([65], [1, 2]) ∧
    d.name (d.entry [65]) = none := by
  let diff : Diff := .byteAdd ⟨[65], false, [1, 2]⟩
  refine ⟨⟨fun path => if path = [67] then 0 else 1, fun i => if i = 0 then some (.file 0) else none,
    fun _ => ⟨diff.fileContent, 420⟩, 1, 384, 420⟩, diff, ?_, ?_, rfl, rfl⟩
  · intro i n h
    simp only at h ⊢
    split at h <;> simp_all
  · refine holdsDiff_of_file ?_ ?_ rfl
    · trivial
    · intro path h
      simp only [diff, Diff.paths, List.mem_cons, List.not_mem_nil, or_false] at h
      subst h
      exact ⟨['A'], by decide⟩

example (p : Profile) := C117_same p [84] [67] false ⟨exampleDisk, [], []⟩ exampleDisk_sound
example (p : Profile) := C117_files p [84] [67] false ⟨exampleDisk, [.none, .none, .fail 0], []⟩ exampleDisk_sound
example (p : Profile) := C117_names p [84] [67] false ⟨exampleDisk, [], []⟩ exampleDisk_sound exampleDiff exampleDisk_held
example := C118_partial .release [84] [67] [65] false ⟨exampleDisk, [], []⟩ exampleDisk_sound exampleDiff exampleDisk_held rfl exampleDisk_run
example := C118_apart .release [84] [67] [65] [72] false ⟨exampleDisk, [], []⟩ exampleDisk_sound exampleDiff
    exampleDisk_held rfl 0 rfl (by decide) exampleDisk_run
example := C119_partial .release [84] [67] [65] false ⟨exampleDisk, [], []⟩ exampleDisk_sound exampleDiff exampleDisk_held rfl exampleDisk_run
example := C119_exact .release [84] [67] [65] false ⟨exampleDisk, [], []⟩ exampleDisk_sound exampleDiff exampleDisk_held rfl 0 exampleDisk_run

end PwDiff
