import Verif.Model.Inodes
import Verif.Props.Programs

/-! # `pw_patch` on inodes: lemmas -/

namespace PwDiff

/-- What is at a directory entry, without the identity and the permissions of files. -/
def Disk.nodeOf (disk : Disk) : Name → Node
  | .file n => .file (disk.inode n).content
  | .dir => .dir
  | .link t => .link t

/-- The file system of `Model/Programs` that belongs to a disk. -/
def Disk.flat (disk : Disk) : FS := ⟨disk.entry, fun i => (disk.name i).map disk.nodeOf⟩

/-- The same for the state around a process. -/
def DiskWorld.flat (w : DiskWorld) : World := ⟨w.disk.flat, w.faults, w.stdout⟩

/-- Numbers of new files are not in use. -/
def Disk.Sound (disk : Disk) : Prop := ∀ i n, disk.name i = some (.file n) → n < disk.fresh

/-- The entry refers to the file, and no other does. -/
def Disk.Sole (disk : Disk) (i n : Nat) : Prop :=
  disk.name i = some (.file n) ∧ n < disk.fresh ∧ ∀ j, disk.name j = some (.file n) → j = i

namespace Disk

@[simp] theorem flat_entry (d : Disk) : d.flat.entry = d.entry := rfl
theorem flat_node (d : Disk) (i : Nat) : d.flat.node i = (d.name i).map d.nodeOf := rfl

theorem flat_followFrom (d : Disk) (n i : Nat) : d.flat.followFrom n i = d.followFrom n i := by
  induction n generalizing i with
  | zero => rfl
  | succ n ih =>
    rw [FS.followFrom, followFrom, flat_node]
    cases h : d.name i with
    | none => rfl
    | some x => cases x <;> simp [nodeOf, ih]

theorem flat_follow (d : Disk) (path : Path) : d.flat.follow path = d.follow path := flat_followFrom ..

theorem flat_contentAt (d : Disk) (path : Path) : d.flat.contentAt path = d.contentAt path := by
  rw [FS.contentAt, contentAt, flat_follow]
  cases d.follow path with
  | none => rfl
  | some i =>
    simp only [flat_node]
    cases h : d.name i with
    | none => rfl
    | some x => cases x <;> rfl

theorem flat_isNone (d : Disk) (i : Nat) : d.flat.node i = none ↔ d.name i = none := by
  rw [flat_node]; simp

theorem flat_isDir (d : Disk) (i : Nat) : d.flat.node i = some .dir ↔ d.name i = some .dir := by
  rw [flat_node]
  cases d.name i with
  | none => simp
  | some x => cases x <;> simp [nodeOf]

theorem fs_ext {a b : FS} (h1 : a.entry = b.entry) (h2 : ∀ i, a.node i = b.node i) : a = b := by
  cases a; cases b; cases h1
  congr
  exact funext h2

theorem flat_setName (d : Disk) (i : Nat) (x : Option Name) : (d.setName i x).flat = d.flat.set i (x.map d.nodeOf) := by
  refine fs_ext rfl fun j => ?_
  simp only [flat_node, setName, FS.set]
  split <;> rfl

theorem flat_add (d : Disk) (hs : d.Sound) (i mode : Nat) : (d.add i mode).flat = d.flat.set i (some (.file [])) := by
  refine fs_ext rfl fun j => ?_
  simp only [flat_node, add, FS.set]
  split
  · simp [nodeOf]
  · cases h : d.name j with
    | none => rfl
    | some x =>
      cases x with
      | file n =>
        have := hs j n h
        simp [nodeOf, Nat.ne_of_lt this]
      | dir => rfl
      | link t => rfl

theorem flat_setContent (d : Disk) {i n : Nat} (hs : d.Sole i n) (c : List UInt8) :
    (d.setContent n c).flat = d.flat.set i (some (.file c)) := by
  refine fs_ext rfl fun j => ?_
  simp only [flat_node, setContent, FS.set]
  split
  · next h =>
    subst h
    rw [hs.1]
    simp [nodeOf]
  · next hj =>
    cases h : d.name j with
    | none => rfl
    | some x =>
      cases x with
      | file m =>
        have : m ≠ n := fun e => hj (hs.2.2 j (e ▸ h))
        simp [nodeOf, this]
      | dir => rfl
      | link t => rfl

end Disk

/-! ## Simulation -/

/-- The two processes do the same: both go on, with `post`, or both end alike, with `fin`. -/
def SimAt {α β : Type} (w : DiskWorld) (m : DiskSys α) (m' : Sys β) (post : α → β → Disk → Prop) (fin : Ended → Disk → Prop) : Prop :=
  (∃ a b w1, m w = (.ok a, w1) ∧ m' w.flat = (.ok b, w1.flat) ∧ post a b w1.disk) ∨
  (∃ e w1, m w = (.error e, w1) ∧ m' w.flat = (.error e, w1.flat) ∧ fin e w1.disk)

/-- They do so when started on a disk with `pre`. -/
def Sim {α β : Type} (pre : Disk → Prop) (m : DiskSys α) (m' : Sys β) (post : α → β → Disk → Prop) (fin : Ended → Disk → Prop) : Prop :=
  ∀ w, pre w.disk → SimAt w m m' post fin

namespace Sim

variable {α β γ δ : Type} {pre : Disk → Prop} {fin : Ended → Disk → Prop}

theorem bind {m : DiskSys α} {m' : Sys β} {f : α → DiskSys γ} {g : β → Sys δ} {mid : α → β → Disk → Prop}
    {post : γ → δ → Disk → Prop} (h : Sim pre m m' mid fin) (hf : ∀ a b, Sim (mid a b) (f a) (g b) post fin) :
    Sim pre (m >>= f) (m' >>= g) post fin := by
  intro w hw
  show (∃ a b w1, DiskSys.bind m f w = _ ∧ Sys.bind m' g w.flat = _ ∧ _) ∨ (∃ e w1, DiskSys.bind m f w = _ ∧ Sys.bind m' g w.flat = _ ∧ _)
  rcases h w hw with ⟨a, b, w1, e1, e2, h1⟩ | ⟨e, w1, e1, e2, h1⟩
  · simp only [DiskSys.bind, Sys.bind, e1, e2]
    exact hf a b w1 h1
  · simp only [DiskSys.bind, Sys.bind, e1, e2]
    exact .inr ⟨e, w1, rfl, rfl, h1⟩

theorem pure {a : α} {b : β} {post : α → β → Disk → Prop} (h : ∀ d, pre d → post a b d) :
    Sim pre (Pure.pure a : DiskSys α) (Pure.pure b : Sys β) post fin :=
  fun w hw => .inl ⟨a, b, w, rfl, rfl, h _ hw⟩

theorem exit {post : α → β → Disk → Prop} (n : Nat) (h : ∀ d, pre d → fin (.exited n) d) :
    Sim pre (DiskSys.exit n : DiskSys α) (Sys.exit n : Sys β) post fin :=
  fun w hw => .inr ⟨_, w, rfl, rfl, h _ hw⟩

theorem diverge {post : α → β → Disk → Prop} (h : ∀ d, pre d → fin .diverged d) :
    Sim pre (fun w => (.error .diverged, w) : DiskSys α) (fun w => (.error .diverged, w) : Sys β) post fin :=
  fun w hw => .inr ⟨_, w, rfl, rfl, h _ hw⟩

theorem mono {pre' : Disk → Prop} {fin' : Ended → Disk → Prop} {m : DiskSys α} {m' : Sys β} {post post' : α → β → Disk → Prop}
    (h : Sim pre m m' post fin) (h1 : ∀ d, pre' d → pre d) (h2 : ∀ a b d, post a b d → post' a b d) (h3 : ∀ e d, fin e d → fin' e d) :
    Sim pre' m m' post' fin' := by
  intro w hw
  rcases h w (h1 _ hw) with ⟨a, b, w1, e1, e2, h⟩ | ⟨e, w1, e1, e2, h⟩
  · exact .inl ⟨a, b, w1, e1, e2, h2 _ _ _ h⟩
  · exact .inr ⟨e, w1, e1, e2, h3 _ _ h⟩

theorem operation {n1 : DiskWorld → α × DiskWorld} {f1 : Nat → DiskWorld → α × DiskWorld} {k1 : Nat → DiskWorld → DiskWorld}
    {n2 : World → β × World} {f2 : Nat → World → β × World} {k2 : Nat → World → World} {post : α → β → Disk → Prop}
    (h1 : ∀ w, pre w.disk → (n2 w.flat).2 = (n1 w).2.flat ∧ post (n1 w).1 (n2 w.flat).1 (n1 w).2.disk)
    (h2 : ∀ n w, pre w.disk → (f2 n w.flat).2 = (f1 n w).2.flat ∧ post (f1 n w).1 (f2 n w.flat).1 (f1 n w).2.disk)
    (h3 : ∀ n w, pre w.disk → k2 n w.flat = (k1 n w).flat ∧ fin .killed (k1 n w).disk) :
    Sim pre (DiskSys.operation n1 f1 k1) (Sys.operation n2 f2 k2) post fin := by
  intro w hw
  obtain ⟨d, faults, stdout⟩ := w
  unfold DiskSys.operation Sys.operation
  cases faults with
  | nil =>
    obtain ⟨e, h⟩ := h1 ⟨d, [], stdout⟩ hw
    refine .inl ⟨_, _, _, rfl, ?_, h⟩
    rw [← e]; rfl
  | cons f fs =>
    cases f with
    | none =>
      obtain ⟨e, h⟩ := h1 ⟨d, fs, stdout⟩ hw
      refine .inl ⟨_, _, _, rfl, ?_, h⟩
      rw [← e]; rfl
    | fail n =>
      obtain ⟨e, h⟩ := h2 n ⟨d, fs, stdout⟩ hw
      refine .inl ⟨_, _, _, rfl, ?_, h⟩
      rw [← e]; rfl
    | kill n =>
      obtain ⟨e, h⟩ := h3 n ⟨d, fs, stdout⟩ hw
      refine .inr ⟨_, _, rfl, ?_, h⟩
      rw [← e]; rfl

end Sim

/-! ## What changes -/

/-- From `d0` to `d` only the entries with `touch` have changed, and each of these has gone or refers to a new file, which has
the permissions `mode`.  All files that were there are as they were. -/
structure Only (d0 : Disk) (touch : Nat → Prop) (mode : Nat) (d : Disk) : Prop where
  entry : d.entry = d0.entry
  tempMode : d.tempMode = d0.tempMode
  newMode : d.newMode = d0.newMode
  fresh : d0.fresh ≤ d.fresh
  old : ∀ n, n < d0.fresh → d.inode n = d0.inode n
  new : ∀ n, d0.fresh ≤ n → n < d.fresh → (d.inode n).mode = mode
  names : ∀ i, d.name i = d0.name i ∨ d.name i = none ∨ ∃ n, d0.fresh ≤ n ∧ d.name i = some (.file n)
  others : ∀ i, ¬ touch i → d.name i = d0.name i
  sound : d.Sound

namespace Only

variable {d0 d : Disk} {touch : Nat → Prop} {mode : Nat}

theorem refl (h : d0.Sound) : Only d0 touch mode d0 :=
  ⟨rfl, rfl, rfl, Nat.le_refl _, fun _ _ => rfl, fun _ h1 h2 => absurd h2 (Nat.not_lt.2 h1), fun _ => .inl rfl, fun _ _ => rfl, h⟩

theorem add (h : Only d0 touch mode d) {i : Nat} (hi : touch i) : Only d0 touch mode (d.add i mode) := {
  entry := h.entry
  tempMode := h.tempMode
  newMode := h.newMode
  fresh := Nat.le_succ_of_le h.fresh
  old := fun n hn => by
    have := h.fresh
    simp only [Disk.add]
    rw [if_neg (by omega)]
    exact h.old n hn
  new := fun n h1 h2 => by
    simp only [Disk.add] at h2 ⊢
    split
    · rfl
    · exact h.new n h1 (by omega)
  names := fun j => by
    simp only [Disk.add]
    split
    · exact .inr (.inr ⟨_, h.fresh, rfl⟩)
    · exact h.names j
  others := fun j hj => by
    simp only [Disk.add]
    rw [if_neg (fun e : j = i => hj (e ▸ hi))]
    exact h.others j hj
  sound := fun j n hj => by
    simp only [Disk.add] at hj ⊢
    split at hj
    · simp only [Option.some.injEq, Name.file.injEq] at hj; omega
    · have := h.sound j n hj; omega }

theorem sole_add (h : Only d0 touch mode d) (i : Nat) : (d.add i mode).Sole i d.fresh := by
  refine ⟨by simp [Disk.add], by simp [Disk.add], ?_⟩
  intro j hj
  simp only [Disk.add] at hj
  split at hj
  · assumption
  · exact absurd (h.sound j _ hj) (Nat.lt_irrefl _)

theorem setContent (h : Only d0 touch mode d) {n : Nat} (hn : d0.fresh ≤ n) (c : List UInt8) : Only d0 touch mode (d.setContent n c) := {
  entry := h.entry
  tempMode := h.tempMode
  newMode := h.newMode
  fresh := h.fresh
  old := fun m hm => by
    simp only [Disk.setContent]
    rw [if_neg (by omega)]
    exact h.old m hm
  new := fun m h1 h2 => by
    simp only [Disk.setContent]
    split
    · next e => subst e; exact h.new m h1 h2
    · exact h.new m h1 h2
  names := h.names
  others := h.others
  sound := h.sound }

theorem setNone (h : Only d0 touch mode d) {i : Nat} (hi : touch i) : Only d0 touch mode (d.setName i none) := {
  entry := h.entry
  tempMode := h.tempMode
  newMode := h.newMode
  fresh := h.fresh
  old := h.old
  new := h.new
  names := fun j => by
    simp only [Disk.setName]
    split
    · exact .inr (.inl rfl)
    · exact h.names j
  others := fun j hj => by
    simp only [Disk.setName]
    rw [if_neg (fun e : j = i => hj (e ▸ hi))]
    exact h.others j hj
  sound := fun j n hj => by
    simp only [Disk.setName] at hj ⊢
    split at hj
    · cases hj
    · exact h.sound j n hj }

theorem setFile (h : Only d0 touch mode d) {i n : Nat} (hi : touch i) (h1 : d0.fresh ≤ n) (h2 : n < d.fresh) :
    Only d0 touch mode (d.setName i (some (.file n))) := {
  entry := h.entry
  tempMode := h.tempMode
  newMode := h.newMode
  fresh := h.fresh
  old := h.old
  new := h.new
  names := fun j => by
    simp only [Disk.setName]
    split
    · exact .inr (.inr ⟨n, h1, rfl⟩)
    · exact h.names j
  others := fun j hj => by
    simp only [Disk.setName]
    rw [if_neg (fun e : j = i => hj (e ▸ hi))]
    exact h.others j hj
  sound := fun j m hj => by
    simp only [Disk.setName] at hj ⊢
    split at hj
    · simp only [Option.some.injEq, Name.file.injEq] at hj; omega
    · exact h.sound j m hj }

end Only

theorem Disk.Sole.setContent {d : Disk} {i n : Nat} (h : d.Sole i n) (c : List UInt8) : (d.setContent n c).Sole i n := h

/-- The process has ended, not with exit status 0. -/
def Ends (d0 : Disk) (touch : Nat → Prop) (mode : Nat) (e : Ended) (d : Disk) : Prop := Only d0 touch mode d ∧ e ≠ .exited 0

/-! ## The operations -/

section
variable {d0 : Disk} {touch : Nat → Prop} {mode : Nat}

/-- At the start. -/
theorem sim_openStill (path : Path) {fin : Ended → Disk → Prop} (h0 : fin .killed d0) : Sim (· = d0) (DiskSys.openFile path) (Sys.openFile path)
    (fun r r' d => r = r' ∧ (∀ x, r = some x → x.fails = false → d0.contentAt path = some x) ∧ d = d0) fin := by
  unfold DiskSys.openFile Sys.openFile
  refine Sim.operation ?_ ?_ ?_
  · rintro w rfl
    exact ⟨rfl, (Disk.flat_contentAt ..).symm, fun x hx _ => hx, rfl⟩
  · rintro n w rfl
    refine ⟨rfl, ?_, ?_, rfl⟩
    · show _ = Option.map _ (w.disk.flat.contentAt path)
      rw [Disk.flat_contentAt]
    · intro x hx hf
      cases hc : w.disk.contentAt path with
      | none => simp [hc] at hx
      | some r =>
        simp only [hc, Option.map_some, Option.some.injEq] at hx
        subst hx
        cases hf
  · rintro n w rfl
    exact ⟨rfl, h0⟩

theorem sim_createNew (path : Path) (md : Disk → Nat) (hmd : ∀ d, Only d0 touch mode d → md d = mode)
    (ht : d0.name (d0.entry path) = none → touch (d0.entry path)) :
    Sim (fun d => Only d0 touch mode d ∧ d.name (d0.entry path) = d0.name (d0.entry path)) (DiskSys.createNew path md) (Sys.createNew path)
    (fun r r' d => Only d0 touch mode d ∧ ((r = none ∧ r' = none) ∨
      ∃ n, r = some n ∧ r' = some (d0.entry path) ∧ d0.fresh ≤ n ∧ d.Sole (d0.entry path) n ∧ d0.name (d0.entry path) = none))
    (Ends d0 touch mode) := by
  unfold DiskSys.createNew Sys.createNew
  refine Sim.operation ?_ ?_ ?_
  · rintro w ⟨h, hn⟩
    have he : w.disk.entry path = d0.entry path := by rw [h.entry]
    by_cases hs : w.disk.name (d0.entry path) = none
    · have hfs : w.flat.fs.node (w.flat.fs.entry path) = none := (Disk.flat_isNone w.disk _).2 (by rw [show w.flat.fs.entry = w.disk.entry from rfl, he, hs])
      simp only [hfs, he, hs, Option.isSome_none, Bool.false_eq_true, if_false]
      have hmode := hmd _ h
      refine ⟨?_, ?_, .inr ⟨_, rfl, by rw [show w.flat.fs.entry = w.disk.entry from rfl, he], h.fresh, ?_, by rw [← hn, hs]⟩⟩
      · show World.mk _ _ _ = World.mk _ _ _
        congr 1
        rw [Disk.flat_add _ h.sound, show w.flat.fs.entry = w.disk.entry from rfl, he]
        rfl
      · rw [hmode]
        exact h.add (ht (by rw [← hn, hs]))
      · rw [hmode]
        exact h.sole_add _
    · have hfs : (w.flat.fs.node (w.flat.fs.entry path)).isSome = true := by
        rw [Option.isSome_iff_ne_none]
        intro e
        exact hs (by rw [← he]; exact (Disk.flat_isNone w.disk _).1 e)
      rw [if_pos hfs, he, if_pos (Option.isSome_iff_ne_none.2 hs)]
      exact ⟨rfl, h, .inl ⟨rfl, rfl⟩⟩
  · rintro n w ⟨h, -⟩
    exact ⟨rfl, h, .inl ⟨rfl, rfl⟩⟩
  · rintro n w ⟨h, -⟩
    exact ⟨rfl, h, nofun⟩

/-- The file has just been created at `i`. -/
def NewFile (d0 : Disk) (touch : Nat → Prop) (mode i n : Nat) (d : Disk) : Prop :=
  Only d0 touch mode d ∧ d0.fresh ≤ n ∧ d.Sole i n

theorem Disk.follow_file {d : Disk} {path : Path} {n : Nat} (h : d.name (d.entry path) = some (.file n)) :
    d.follow path = some (d.entry path) := by
  rw [Disk.follow, Disk.followFrom, h]

theorem sim_create (path : Path) (n : Nat) : Sim (NewFile d0 touch mode (d0.entry path) n) (DiskSys.create path) (Sys.create path)
    (fun r r' d => NewFile d0 touch mode (d0.entry path) n d ∧ ((r = none ∧ r' = none) ∨ (r = some n ∧ r' = some (d0.entry path))))
    (Ends d0 touch mode) := by
  unfold DiskSys.create Sys.create
  refine Sim.operation ?_ ?_ ?_
  · rintro w ⟨h, hn, hs⟩
    have he : w.disk.entry path = d0.entry path := by rw [h.entry]
    have hf : w.disk.follow path = some (d0.entry path) := by
      rw [← he]; exact Disk.follow_file (by rw [he]; exact hs.1)
    have hf' : w.flat.fs.follow path = some (d0.entry path) := (Disk.flat_follow ..).trans hf
    have hd : w.flat.fs.node (d0.entry path) ≠ some .dir := by
      intro e
      have := (Disk.flat_isDir w.disk _).1 e
      rw [hs.1] at this
      cases this
    simp only [hf, hf', hs.1, hd, if_false]
    refine ⟨?_, ⟨h.setContent hn _, hn, hs.setContent _⟩, .inr ⟨trivial, trivial⟩⟩
    show World.mk _ _ _ = World.mk _ _ _
    congr 1
    exact (Disk.flat_setContent _ hs _).symm
  · intro k w h
    exact ⟨rfl, h, .inl ⟨rfl, rfl⟩⟩
  · intro k w h
    exact ⟨rfl, h.1, nofun⟩

theorem sim_writeFile {α : Type} (i n : Nat) (m : WM α) :
    Sim (NewFile d0 touch mode i n) (DiskSys.writeFile n m) (Sys.writeFile i m)
    (fun r r' d => r = r' ∧ NewFile d0 touch mode i n d) (Ends d0 touch mode) := by
  unfold DiskSys.writeFile Sys.writeFile
  have key : ∀ (w : DiskWorld) c, NewFile d0 touch mode i n w.disk →
      ({ w.flat with fs := w.flat.fs.set i (some (.file c)) } : World) = ({ w with disk := w.disk.setContent n c } : DiskWorld).flat ∧
      NewFile d0 touch mode i n (w.disk.setContent n c) := by
    rintro w c ⟨h, hn, hs⟩
    refine ⟨?_, h.setContent hn _, hn, hs.setContent _⟩
    show World.mk _ _ _ = World.mk _ _ _
    congr 1
    exact (Disk.flat_setContent _ hs _).symm
  refine Sim.operation ?_ ?_ ?_
  · intro w h
    exact ⟨(key w _ h).1, rfl, (key w _ h).2⟩
  · intro k w h
    exact ⟨(key w _ h).1, rfl, (key w _ h).2⟩
  · intro k w h
    exact ⟨(key w _ h).1, (key w _ h).2.1, nofun⟩

/-- The entry refers to a new file. -/
def Renewed (d0 : Disk) (i : Nat) (d : Disk) : Prop := ∃ n, d0.fresh ≤ n ∧ d.name i = some (.file n)

theorem sim_rename (src dst : Path) (n : Nat) (h1 : touch (d0.entry src)) (h2 : touch (d0.entry dst)) :
    Sim (NewFile d0 touch mode (d0.entry src) n) (DiskSys.rename src dst) (Sys.rename src dst)
    (fun r r' d => r = r' ∧ Only d0 touch mode d ∧ (r = true → d0.entry src ≠ d0.entry dst → Renewed d0 (d0.entry dst) d)) (Ends d0 touch mode) := by
  unfold DiskSys.rename Sys.rename
  refine Sim.operation ?_ ?_ ?_
  · rintro w ⟨h, hn, hs⟩
    have e1 : w.disk.entry src = d0.entry src := by rw [h.entry]
    have e2 : w.disk.entry dst = d0.entry dst := by rw [h.entry]
    have f1 : w.flat.fs.entry src = d0.entry src := e1
    have f2 : w.flat.fs.entry dst = d0.entry dst := e2
    have g1 : w.flat.fs.node (d0.entry src) ≠ none := by
      intro e
      have := (Disk.flat_isNone w.disk _).1 e
      rw [hs.1] at this; cases this
    have g1' : w.disk.name (d0.entry src) ≠ none := by rw [hs.1]; simp
    simp only [e1, e2, f1, f2, g1, g1', false_or]
    by_cases hd : w.disk.name (d0.entry dst) = some .dir
    · have hd' : w.flat.fs.node (d0.entry dst) = some .dir := (Disk.flat_isDir ..).2 hd
      simp only [hd, hd', if_true]
      exact ⟨trivial, trivial, h, nofun⟩
    · have hd' : ¬ w.flat.fs.node (d0.entry dst) = some .dir := fun e => hd ((Disk.flat_isDir ..).1 e)
      simp only [hd, hd', if_false]
      by_cases hsd : d0.entry src = d0.entry dst
      · simp only [hsd, true_or, if_true]
        exact ⟨trivial, trivial, h, fun _ h => absurd rfl h⟩
      · have hsame : DiskSys.sameFile (w.disk.name (d0.entry src)) (w.disk.name (d0.entry dst)) = false := by
          rw [hs.1]
          cases hx : w.disk.name (d0.entry dst) with
          | none => rfl
          | some x =>
            cases x with
            | file m =>
              simp only [DiskSys.sameFile, beq_eq_false_iff_ne]
              intro e
              exact hsd (hs.2.2 _ (e ▸ hx)).symm
            | dir => rfl
            | link t => rfl
        simp only [hsd, hsame, Bool.false_eq_true, or_self, if_false]
        refine ⟨?_, trivial, ?_, fun _ _ => ?_⟩
        · show World.mk _ _ _ = World.mk _ _ _
          congr 1
          rw [Disk.flat_setName, Disk.flat_setName]
          rfl
        · rw [hs.1]
          exact (h.setFile h2 hn hs.2.1).setNone h1
        · refine ⟨n, hn, ?_⟩
          simp only [Disk.setName]
          rw [if_neg (fun e => hsd e.symm), if_pos trivial, hs.1]
  · rintro k w ⟨h, -⟩
    exact ⟨rfl, rfl, h, nofun⟩
  · rintro k w ⟨h, -⟩
    exact ⟨rfl, h, nofun⟩

theorem sim_removeFile (path : Path) (ht : touch (d0.entry path)) {K : Disk → Prop}
    (hK : ∀ d, K d → K (d.setName (d0.entry path) none)) :
    Sim (fun d => Only d0 touch mode d ∧ K d) (DiskSys.removeFile path) (Sys.removeFile path)
    (fun r r' d => r = r' ∧ Only d0 touch mode d ∧ K d) (Ends d0 touch mode) := by
  unfold DiskSys.removeFile Sys.removeFile
  refine Sim.operation ?_ ?_ ?_
  · rintro w ⟨h, hk⟩
    have e1 : w.disk.entry path = d0.entry path := by rw [h.entry]
    have f1 : w.flat.fs.entry path = d0.entry path := e1
    have hiff : (w.flat.fs.node (d0.entry path) = none ∨ w.flat.fs.node (d0.entry path) = some .dir) ↔
        (w.disk.name (d0.entry path) = none ∨ w.disk.name (d0.entry path) = some .dir) :=
      or_congr (Disk.flat_isNone ..) (Disk.flat_isDir ..)
    simp only [e1, f1, hiff]
    split
    · exact ⟨rfl, rfl, h, hk⟩
    · refine ⟨?_, rfl, h.setNone ht, hK _ hk⟩
      show World.mk _ _ _ = World.mk _ _ _
      congr 1
      rw [Disk.flat_setName]
      rfl
  · rintro n w ⟨h, hk⟩
    exact ⟨rfl, rfl, h, hk⟩
  · rintro n w ⟨h, -⟩
    exact ⟨rfl, h, nofun⟩

theorem sim_ofOutcome {α : Type} {pre : Disk → Prop} {fin : Ended → Disk → Prop} (o : Outcome α)
    (h : ∀ e d, e ≠ .exited 0 → pre d → fin e d) :
    Sim pre (DiskSys.ofOutcome o) (Sys.ofOutcome o) (fun r r' d => r = r' ∧ (∀ a, r = some a → o = .ok a) ∧ pre d) fin := by
  cases o with
  | ok a => exact Sim.pure fun d h => ⟨rfl, fun b hb => by rw [Option.some.inj hb], h⟩
  | ioErr => exact Sim.pure fun d h => ⟨rfl, fun b hb => by simp at hb, h⟩
  | panic => exact Sim.exit _ fun d hd => h _ d nofun hd
  | diverge => exact Sim.diverge fun d hd => h _ d nofun hd

end

/-! ## The program -/

section
variable {d0 : Disk} {touch : Nat → Prop} {mode : Nat}

/-- Both go on, with `fine`, or both end; nothing else is changed. -/
def SimResult (d0 : Disk) (touch : Nat → Prop) (mode : Nat) (fine : Disk → Prop) (pre : Disk → Prop) (m : DiskSys Unit) (m' : Sys Unit) : Prop :=
  Sim pre m m' (fun _ _ d => Only d0 touch mode d ∧ fine d) (Ends d0 touch mode)

theorem sim_dropTemp (temp : Path) (h : touch (d0.entry temp)) {K : Disk → Prop} (hK : ∀ d, K d → K (d.setName (d0.entry temp) none)) :
    SimResult d0 touch mode K (fun d => Only d0 touch mode d ∧ K d) (OnDisk.dropTemp temp) (dropTemp temp) :=
  Sim.bind (sim_removeFile temp h hK) fun _ _ => Sim.pure fun _ h => h.2

theorem sim_finishPatch {β : Type} (temp path : Path) (o : Outcome β) (n : Nat) (h1 : touch (d0.entry temp)) (h2 : touch (d0.entry path))
    (hne : d0.entry temp ≠ d0.entry path) :
    SimResult d0 touch mode (Renewed d0 (d0.entry path)) (NewFile d0 touch mode (d0.entry temp) n) (OnDisk.finishPatch temp path o)
      (finishPatch temp path o) := by
  cases o with
  | ok b =>
    refine Sim.bind (sim_rename temp path n h1 h2) fun r r' => ?_
    intro w hw
    obtain ⟨rfl, hw, hr⟩ := hw
    cases r with
    | true =>
      refine sim_dropTemp temp h1 ?_ w ⟨hw, hr rfl hne⟩
      rintro d ⟨n, hn, hd⟩
      refine ⟨n, hn, ?_⟩
      simp only [Disk.setName]
      rw [if_neg (Ne.symm hne), hd]
    | false => exact Sim.exit 1 (pre := Only d0 touch mode) (fun _ h => ⟨h, nofun⟩) w hw
  | ioErr => exact Sim.exit 1 fun _ h => ⟨h.1, nofun⟩
  | panic =>
    refine Sim.bind (mid := fun _ _ d => Only d0 touch mode d) ((sim_dropTemp temp h1 (K := fun _ => True) fun _ _ => trivial).mono
      (fun _ h => ⟨h.1, trivial⟩) (fun _ _ _ h => h.1) fun _ _ h => h) fun _ _ => ?_
    exact Sim.exit 101 fun _ h => ⟨h, nofun⟩
  | diverge => exact Sim.diverge fun _ h => ⟨h.1, nofun⟩

theorem sim_patchContent {β : Type} (temp path : Path) (m : WM β) (hs : d0.Sound) (hm : mode = d0.tempMode)
    (h1 : d0.name (d0.entry temp) = none → touch (d0.entry temp)) (h2 : touch (d0.entry path)) (hne : d0.name (d0.entry path) ≠ none) :
    SimResult d0 touch mode (Renewed d0 (d0.entry path)) (· = d0) (OnDisk.patchContent temp path m) (patchContent temp path m) := by
  have hstart : ∀ d, d = d0 → Only d0 touch mode d ∧ d.name (d0.entry temp) = d0.name (d0.entry temp) := by
    rintro d rfl
    exact ⟨.refl hs, rfl⟩
  refine Sim.bind ((sim_createNew temp Disk.tempMode (fun d h => h.tempMode.trans hm.symm) h1).mono hstart (fun _ _ _ h => h)
    fun _ _ h => h) fun r r' => ?_
  rintro w ⟨ho, ⟨rfl, rfl⟩ | ⟨n, rfl, rfl, hn, hsole, hfree⟩⟩
  · exact Sim.exit 1 (pre := Only d0 touch mode) (fun _ h => ⟨h, nofun⟩) w ho
  refine Sim.bind (sim_create temp n) (fun r r' => ?_) w ⟨ho, hn, hsole⟩
  rintro w ⟨hnew, ⟨rfl, rfl⟩ | ⟨rfl, rfl⟩⟩
  · exact Sim.exit 1 (pre := Only d0 touch mode) (fun _ h => ⟨h, nofun⟩) w hnew.1
  refine Sim.bind (sim_writeFile (d0.entry temp) n m) (fun r r' => ?_) w hnew
  rintro w ⟨rfl, hnew⟩
  exact sim_finishPatch temp path r n (h1 hfree) h2 (fun e => hne (e ▸ hfree)) w hnew

theorem Disk.name_ne_none {d : Disk} {path : Path} {r : Reader} (h : d.contentAt path = some r) : d.name (d.entry path) ≠ none := by
  intro hn
  rw [Disk.contentAt, Disk.follow, Disk.followFrom, hn] at h
  simp [hn] at h

theorem sim_patchFile {α β : Type} (temp path : Path) (read : Reader → Outcome α) (apply : α → WM β) (hs : d0.Sound)
    (hm : mode = d0.tempMode) (h1 : d0.name (d0.entry temp) = none → touch (d0.entry temp)) (h2 : touch (d0.entry path))
    (hread : ∀ r a, read r = .ok a → r.fails = false) :
    SimResult d0 touch mode (Renewed d0 (d0.entry path)) (· = d0) (OnDisk.patchFile temp path read apply) (patchFile temp path read apply) := by
  have hend : ∀ (e : Ended) (d : Disk), e ≠ .exited 0 → d = d0 → Ends d0 touch mode e d := by
    rintro e d he rfl
    exact ⟨.refl hs, he⟩
  refine Sim.bind (sim_openStill path (hend _ _ nofun rfl)) fun r r' => ?_
  rintro w ⟨rfl, hr, hd⟩
  cases r with
  | none => exact Sim.exit 1 (pre := (· = d0)) (fun _ h => hend _ _ nofun h) w hd
  | some r =>
    refine Sim.bind (sim_ofOutcome (pre := (· = d0)) (read r) hend) (fun a a' => ?_) w hd
    rintro w ⟨rfl, ha, hd⟩
    cases a with
    | none => exact Sim.exit 1 (pre := (· = d0)) (fun _ h => hend _ _ nofun h) w hd
    | some a =>
      exact sim_patchContent temp path (apply a) hs hm h1 h2 (Disk.name_ne_none (hr r rfl (hread r a (ha a rfl)))) w hd

theorem sim_addFile {α : Type} (path : Path) (m : WM α) (hs : d0.Sound) (hm : mode = d0.newMode) (h1 : touch (d0.entry path)) :
    SimResult d0 touch mode (fun _ => True) (· = d0) (OnDisk.addFile path m) (addFile path m) := by
  have hstart : ∀ d, d = d0 → Only d0 touch mode d ∧ d.name (d0.entry path) = d0.name (d0.entry path) := by
    rintro d rfl
    exact ⟨.refl hs, rfl⟩
  refine Sim.bind ((sim_createNew path Disk.newMode (fun d h => h.newMode.trans hm.symm) fun _ => h1).mono hstart (fun _ _ _ h => h)
    fun _ _ h => h) fun r r' => ?_
  rintro w ⟨ho, ⟨rfl, rfl⟩ | ⟨n, rfl, rfl, hn, hsole, hfree⟩⟩
  · exact .inl ⟨_, _, w, rfl, rfl, ho, trivial⟩
  refine Sim.bind (sim_writeFile (d0.entry path) n m) (fun r r' => ?_) w ⟨ho, hn, hsole⟩
  exact Sim.pure fun _ h => ⟨h.2.1, trivial⟩

theorem sim_deleteFile (path : Path) (hs : d0.Sound) (h1 : touch (d0.entry path)) :
    SimResult d0 touch mode (fun _ => True) (· = d0) (OnDisk.deleteFile path) (deleteFile path) := by
  refine Sim.bind ((sim_removeFile path h1 (K := fun _ => True) fun _ _ => trivial).mono (pre' := (· = d0)) ?_ (fun _ _ _ h => h)
    fun _ _ h => h) fun r r' => ?_
  · rintro d rfl
    exact ⟨.refl hs, trivial⟩
  rintro w ⟨rfl, hw⟩
  cases r with
  | true => exact .inl ⟨_, _, w, rfl, rfl, hw⟩
  | false => exact .inr ⟨_, w, rfl, rfl, hw.1, nofun⟩

end

/-- The path a diff is about. -/
def Diff.about : Diff → Path
  | .textChange d => d.beforePath
  | .textAdd d => d.path
  | .textRemove d => d.path
  | .byteChange d => d.beforePath
  | .byteAdd d => d.path
  | .byteRemove d => d.path

/-- The entries that may be changed: that of the path, and when a file is changed also that of the temporary file, if there is
nothing at that place. -/
def Touches (d0 : Disk) (temp : Path) (diff : Diff) (i : Nat) : Prop :=
  i = d0.entry diff.about ∨ (diff.changed.isSome ∧ i = d0.entry temp ∧ d0.name i = none)

/-- The permissions that files made for a diff get. -/
def modeFor (d0 : Disk) (diff : Diff) : Nat := if diff.changed.isSome then d0.tempMode else d0.newMode

theorem readText_fails {r : Reader} {a : List Str} (h : readText r = .ok a) : r.fails = false := ((readText_eq_ok_iff r a).1 h).1

theorem readBytes_fails {r : Reader} {a : List UInt8} (h : readBytes r = .ok a) : r.fails = false := by
  obtain ⟨data, fails⟩ := r
  cases fails with
  | true => cases h
  | false => rfl

theorem sim_applyDiff (p : Profile) (temp : Path) (rev : Bool) (diff : Diff) (d0 : Disk) (hs : d0.Sound) :
    SimResult d0 (Touches d0 temp diff) (modeFor d0 diff) (fun d => ∀ target, diff.changed = some target → Renewed d0 (d0.entry target) d)
      (· = d0) (OnDisk.applyDiff p temp rev diff) (applyDiff p temp rev diff) := by
  have ht : Touches d0 temp diff (d0.entry diff.about) := .inl rfl
  cases diff with
  | textChange d =>
    refine (sim_patchFile temp d.beforePath readText (fun ls => applyInto p d.clumps ls rev) hs rfl (fun h => .inr ⟨rfl, rfl, h⟩) ht
      fun r a h => readText_fails h).mono (fun _ h => h) (fun _ _ d h => ⟨h.1, ?_⟩) fun _ _ h => h
    rintro t ⟨⟩
    exact h.2
  | byteChange d =>
    refine (sim_patchFile temp d.beforePath readBytes (fun ls => byteApplyInto p d.clumps ls rev) hs rfl (fun h => .inr ⟨rfl, rfl, h⟩) ht
      fun r a h => readBytes_fails h).mono (fun _ h => h) (fun _ _ d h => ⟨h.1, ?_⟩) fun _ _ h => h
    rintro t ⟨⟩
    exact h.2
  | textAdd d =>
    cases rev with
    | true => exact (sim_deleteFile d.path hs ht).mono (fun _ h => h) (fun _ _ _ h => ⟨h.1, nofun⟩) fun _ _ h => h
    | false => exact (sim_addFile d.path _ hs rfl ht).mono (fun _ h => h) (fun _ _ _ h => ⟨h.1, nofun⟩) fun _ _ h => h
  | textRemove d =>
    cases rev with
    | false => exact (sim_deleteFile d.path hs ht).mono (fun _ h => h) (fun _ _ _ h => ⟨h.1, nofun⟩) fun _ _ h => h
    | true => exact (sim_addFile d.path _ hs rfl ht).mono (fun _ h => h) (fun _ _ _ h => ⟨h.1, nofun⟩) fun _ _ h => h
  | byteAdd d =>
    cases rev with
    | true => exact (sim_deleteFile d.path hs ht).mono (fun _ h => h) (fun _ _ _ h => ⟨h.1, nofun⟩) fun _ _ h => h
    | false => exact (sim_addFile d.path _ hs rfl ht).mono (fun _ h => h) (fun _ _ _ h => ⟨h.1, nofun⟩) fun _ _ h => h
  | byteRemove d =>
    cases rev with
    | false => exact (sim_deleteFile d.path hs ht).mono (fun _ h => h) (fun _ _ _ h => ⟨h.1, nofun⟩) fun _ _ h => h
    | true => exact (sim_addFile d.path _ hs rfl ht).mono (fun _ h => h) (fun _ _ _ h => ⟨h.1, nofun⟩) fun _ _ h => h

/-- What is known after a run of `pw_patch`. -/
def AfterRun (temp patch : Path) (d0 : Disk) (good : Bool) (d : Disk) : Prop :=
  (d = d0 ∧ good = false) ∨ ∃ diff, HoldsDiff d0.flat patch diff ∧ Only d0 (Touches d0 temp diff) (modeFor d0 diff) d ∧
    (good = true → ∀ target, diff.changed = some target → Renewed d0 (d0.entry target) d)

/-- The whole program. -/
theorem sim_pwPatch (p : Profile) (temp patch : Path) (rev : Bool) (d0 : Disk) (hs : d0.Sound) :
    Sim (· = d0) (OnDisk.pwPatch p temp patch rev) (pwPatch p temp patch rev) (fun _ _ => AfterRun temp patch d0 true)
      (fun e d => e ≠ .exited 0 ∧ AfterRun temp patch d0 false d) := by
  have hend : ∀ (e : Ended) (d : Disk), e ≠ .exited 0 → d = d0 → e ≠ .exited 0 ∧ AfterRun temp patch d0 false d :=
    fun e d he hd => ⟨he, .inl ⟨hd, rfl⟩⟩
  refine Sim.bind (sim_openStill patch (hend _ _ nofun rfl)) fun r r' => ?_
  rintro w ⟨rfl, hr, hd⟩
  cases r with
  | none => exact Sim.exit 1 (pre := (· = d0)) (fun _ h => hend (.exited 1) _ nofun h) w hd
  | some r =>
    refine Sim.bind (sim_ofOutcome (pre := (· = d0)) (Diff.fromReader r) hend) (fun a a' => ?_) w hd
    rintro w ⟨rfl, ha, hd⟩
    cases a with
    | none => exact Sim.exit 1 (pre := (· = d0)) (fun _ h => hend (.exited 1) _ nofun h) w hd
    | some diff =>
      have ho := ha diff rfl
      have hf : r.fails = false := by
        cases hf : r.fails with
        | false => rfl
        | true => exact absurd ho (by cases r; cases hf; simp [Diff.fromReader])
      have hh : HoldsDiff d0.flat patch diff := ⟨r, by rw [Disk.flat_contentAt]; exact hr r rfl hf, ho⟩
      exact (sim_applyDiff p temp rev diff d0 hs).mono (fun _ h => h) (fun _ _ d h => .inr ⟨diff, hh, h.1, fun _ => h.2⟩)
        (fun e d h => ⟨h.2, .inr ⟨diff, hh, h.1, nofun⟩⟩) w hd

end PwDiff
