import Verif.Proofs.Shared
import Verif.Props.Programs

/-! # Several runs of `pw_patch` at the same time -/

namespace PwDiff

open Sys Steps

/-- A run of `pw_patch`: how it was called, the path of its temporary file, and the diff in its patch file with the file it
changes. -/
structure Job where
  profile : Profile
  temp : Path
  patch : Path
  reverse : Bool
  diff : Diff
  target : Path

/-- The files the runs need are there, and their temporary files are files of their own. -/
structure Ready (fs : FS) (jobs : List Job) : Prop where
  held : ∀ j ∈ jobs, ∃ c, fs.node (fs.entry j.patch) = some (.file c) ∧ Diff.fromReader ⟨c, false⟩ = .ok j.diff
  changes : ∀ j ∈ jobs, j.diff.changed = some j.target
  files : ∀ j ∈ jobs, ∃ c, fs.node (fs.entry j.target) = some (.file c)
  apart : ∀ j ∈ jobs, ∀ k ∈ jobs, fs.entry j.temp ≠ fs.entry k.target ∧ fs.entry j.temp ≠ fs.entry k.patch ∧
    fs.entry j.patch ≠ fs.entry k.target
  temps : jobs.Pairwise fun j k => fs.entry j.temp ≠ fs.entry k.temp

/-- All of them have been started and none has done anything yet. -/
def Machine.start (fs : FS) (jobs : List Job) (faults : Nat → List Fault) : Machine where
  fs := fs
  proc i := match jobs[i]? with
    | some j => ⟨pwPatchSteps j.profile j.temp j.patch j.reverse, faults i, []⟩
    | none => ⟨.ended (.ok ()), [], []⟩

/-- What the jobs with the numbers `s`, one after the other and each at most once, make of the content of entry `e`. -/
inductive PatchedBy (fs : FS) (jobs : List Job) (e : Nat) : List Nat → List UInt8 → Prop
  | start {c : List UInt8} (h : fs.node e = some (.file c)) : PatchedBy fs jobs e [] c
  | next {s : List Nat} {old new : List UInt8} {i : Nat} {j : Job} (h : PatchedBy fs jobs e s old) (hi : i ∉ s)
      (hj : jobs[i]? = some j) (ht : fs.entry j.target = e) (hp : PatchedContent j.profile j.reverse j.diff old new) :
      PatchedBy fs jobs e (s ++ [i]) new

/-- How far a process has come. -/
inductive Stage where
  | begin
  | opened
  | read (s : List Nat)
  | made (s : List Nat)
  | emptied (s : List Nat)
  | written (s : List Nat)
  | broken
  | put
  | done
  | stopped
  | gone

/-- The file has been replaced. -/
def Stage.Late (x : Stage) : Prop := x = .put ∨ x = .done ∨ x = .stopped

/-- The jobs that have made what the process has read. -/
def Stage.seen : Stage → List Nat
  | .read s => s
  | .made s => s
  | .emptied s => s
  | .written s => s
  | _ => []

/-- What will be written is the patched content. -/
def Source (fs₀ : FS) (jobs : List Job) (i : Nat) (j : Job) (s : List Nat) {β : Type} (m : WM β) : Prop :=
  ∃ v, PatchedBy fs₀ jobs (fs₀.entry j.target) s v ∧ i ∉ s ∧ WM.Norm m ∧
    ∀ b out, m.run = (.ok b, out) → PatchedContent j.profile j.reverse j.diff v out

/-- What is left to do at a stage, and what the temporary file holds. -/
def Reached (fs₀ : FS) (jobs : List Job) (i : Nat) (j : Job) (fs : FS) : Stage → Steps Unit → Prop
  | .begin, r => r = pwPatchSteps j.profile j.temp j.patch j.reverse
  | .opened, r => r = applyDiffSteps j.profile j.temp j.reverse j.diff
  | .read s, r => ∃ (β : Type) (m : WM β), Source fs₀ jobs i j s m ∧ r = patchContentSteps j.temp j.target m
  | .made s, r => ∃ (β : Type) (m : WM β), Source fs₀ jobs i j s m ∧
      r = .step (create j.temp) (fun
        | some i => .step (writeFile i m) (finishPatchSteps j.temp j.target)
        | none => Steps.exit 1) ∧ fs.node (fs₀.entry j.temp) = some (.file [])
  | .emptied s, r => ∃ (β : Type) (m : WM β), Source fs₀ jobs i j s m ∧
      r = .step (writeFile (fs₀.entry j.temp) m) (finishPatchSteps j.temp j.target) ∧
      fs.node (fs₀.entry j.temp) = some (.file [])
  | .written s, r => ∃ (β : Type) (b : β) (v out : List UInt8), PatchedBy fs₀ jobs (fs₀.entry j.target) s v ∧ i ∉ s ∧
      PatchedContent j.profile j.reverse j.diff v out ∧ r = finishPatchSteps j.temp j.target (.ok b) ∧
      fs.node (fs₀.entry j.temp) = some (.file out)
  | .broken, r => r = .step (removeFile j.temp) (fun _ => Steps.exit 101)
  | .put, r => r = .step (removeFile j.temp) (fun _ => .ended (.ok ()))
  | .done, r => r = .ended (.ok ())
  | .stopped, r => r = .ended (.error .killed)
  | .gone, r => ∃ e, e ≠ .exited 0 ∧ r = .ended (.error e)

/-- Changing one value of a function. -/
def upd {α : Type u} (f : Nat → α) (i : Nat) (x : α) : Nat → α := fun k => if k = i then x else f k

@[simp] theorem upd_self {α : Type u} (f : Nat → α) (i : Nat) (x : α) : upd f i x i = x := by simp [upd]
theorem upd_other {α : Type u} (f : Nat → α) {i k : Nat} (x : α) (h : k ≠ i) : upd f i x k = f k := by simp [upd, h]

/-- The state of affairs: `cur e` are the jobs that have made what is in entry `e`. -/
structure Together (fs₀ : FS) (jobs : List Job) (m : Machine) (cur : Nat → List Nat) (stage : Nat → Stage) : Prop where
  entry : m.fs.entry = fs₀.entry
  same : ∀ e, (∀ j ∈ jobs, e ≠ fs₀.entry j.temp) → (∀ c, fs₀.node e ≠ some (.file c)) → m.fs.node e = fs₀.node e
  file : ∀ e, (∀ j ∈ jobs, e ≠ fs₀.entry j.temp) → ∀ c, fs₀.node e = some (.file c) →
    ∃ new, m.fs.node e = some (.file new) ∧ PatchedBy fs₀ jobs e (cur e) new
  reached : ∀ i j, jobs[i]? = some j → Reached fs₀ jobs i j m.fs (stage i) (m.proc i).rest
  idle : ∀ i, jobs[i]? = none → (m.proc i).rest = .ended (.ok ())
  had : ∀ e, ∀ i ∈ cur e, (stage i).Late
  seen : ∀ i, ∀ k ∈ (stage i).seen, (stage k).Late

/-- What a turn can change: the stage of process `i`, whose file has entry `e`, and the content of that. -/
inductive Move (e i : Nat) (cur : Nat → List Nat) : Stage → Stage → (Nat → List Nat) → Prop
  | opened : Move e i cur .begin .opened cur
  | read : Move e i cur .opened (.read (cur e)) cur
  | made (s) : Move e i cur (.read s) (.made s) cur
  | emptied (s) : Move e i cur (.made s) (.emptied s) cur
  | written (s) : Move e i cur (.emptied s) (.written s) cur
  | broken (s) : Move e i cur (.emptied s) .broken cur
  | put (s) : Move e i cur (.written s) .put (upd cur e (s ++ [i]))
  | done : Move e i cur .put .done cur
  | stopped : Move e i cur .put .stopped cur
  | gone (x) (h : ¬ x.Late) : Move e i cur x .gone cur
  | over (x) (h : x = .done ∨ x = .stopped ∨ x = .gone) : Move e i cur x x cur

variable {fs₀ : FS} {jobs : List Job} {m : Machine} {cur : Nat → List Nat} {stage : Nat → Stage}

theorem Ready.temp_ne (hr : Ready fs₀ jobs) {i k : Nat} {j l : Job} (hi : jobs[i]? = some j) (hk : jobs[k]? = some l)
    (h : i ≠ k) : fs₀.entry j.temp ≠ fs₀.entry l.temp := by
  have hp := List.pairwise_iff_getElem.1 hr.temps
  obtain ⟨h1, rfl⟩ := List.getElem?_eq_some_iff.1 hi
  obtain ⟨h2, rfl⟩ := List.getElem?_eq_some_iff.1 hk
  rcases Nat.lt_or_gt_of_ne h with h | h
  · exact hp i k h1 h2 h
  · exact (hp k i h2 h1 h).symm

/-- The stage of another process does not depend on what happens outside its temporary file. -/
theorem Reached.transfer {i : Nat} {j : Job} {fs fs' : FS} {x : Stage} {r : Steps Unit} (h : Reached fs₀ jobs i j fs x r)
    (he : fs'.node (fs₀.entry j.temp) = fs.node (fs₀.entry j.temp)) : Reached fs₀ jobs i j fs' x r := by
  cases x <;> simp only [Reached] at h ⊢ <;> first | exact h | (rw [he]; exact h)

/-- A turn that only changes the temporary file of the process. -/
theorem Together.own (hr : Ready fs₀ jobs) (h : Together fs₀ jobs m cur stage) {i : Nat} {j : Job} (hj : jobs[i]? = some j) {x : Stage} {pr : Process}
    {fs : FS} (he : fs.entry = fs₀.entry) (hn : ∀ k, k ≠ fs₀.entry j.temp → fs.node k = m.fs.node k)
    (hx : Reached fs₀ jobs i j fs x pr.rest)
    (hp : (stage i).Late → x.Late) (hsn : ∀ k ∈ x.seen, (stage k).Late) :
    Together fs₀ jobs ⟨fs, fun k => if k = i then pr else m.proc k⟩ cur (upd stage i x) := by
  have hm := List.mem_of_getElem? hj
  refine ⟨he, ?_, ?_, ?_, ?_, ?_, ?_⟩
  · intro e h1 h2
    rw [← h.same e h1 h2]
    exact hn e (h1 j hm)
  · intro e h1 c hc
    obtain ⟨new, e1, e2⟩ := h.file e h1 c hc
    exact ⟨new, (hn e (h1 j hm)).trans e1, e2⟩
  · intro k l hl
    by_cases hk : k = i
    · subst hk
      obtain rfl := Option.some.inj (hj.symm.trans hl)
      simp only [upd_self, if_true]
      exact hx
    · simp only [upd_other _ _ hk, hk, if_false]
      exact (h.reached k l hl).transfer (hn _ (hr.temp_ne hl hj hk))
  · intro k hk
    have : k ≠ i := by
      rintro rfl
      rw [hj] at hk
      cases hk
    simp only [this, if_false]
    exact h.idle k hk
  · intro e k hk
    by_cases hki : k = i
    · subst hki
      rw [upd_self]
      exact hp (h.had e k hk)
    · rw [upd_other _ _ hki]
      exact h.had e k hk
  · intro k l hl
    have : (stage l).Late := by
      by_cases hki : k = i
      · subst hki
        rw [upd_self] at hl
        exact hsn l hl
      · rw [upd_other _ _ hki] at hl
        exact h.seen k l hl
    by_cases hli : l = i
    · subst hli
      rw [upd_self]
      exact hp this
    · rw [upd_other _ _ hli]
      exact this

/-- Putting the temporary file in place. -/
theorem Together.renamed (hr : Ready fs₀ jobs) (h : Together fs₀ jobs m cur stage) {i : Nat} {j : Job} (hj : jobs[i]? = some j) {s : List Nat}
    {pr : Process} {fs : FS} {v out : List UInt8} (hs : PatchedBy fs₀ jobs (fs₀.entry j.target) s v) (hi : i ∉ s)
    (hv : PatchedContent j.profile j.reverse j.diff v out) (he : fs.entry = fs₀.entry)
    (hn : ∀ k, k ≠ fs₀.entry j.temp → k ≠ fs₀.entry j.target → fs.node k = m.fs.node k)
    (ht : fs.node (fs₀.entry j.target) = some (.file out))
    (hx : pr.rest = .step (removeFile j.temp) (fun _ => .ended (.ok ())))
    (hsput : ∀ k ∈ s, (stage k).Late) :
    Together fs₀ jobs ⟨fs, fun k => if k = i then pr else m.proc k⟩ (upd cur (fs₀.entry j.target) (s ++ [i]))
      (upd stage i .put) := by
  have hm := List.mem_of_getElem? hj
  obtain ⟨c₀, hc₀⟩ := hr.files j hm
  refine ⟨he, ?_, ?_, ?_, ?_, ?_, ?_⟩
  · intro e h1 h2
    rw [← h.same e h1 h2]
    refine hn e (h1 j hm) ?_
    rintro rfl
    exact h2 c₀ hc₀
  · intro e h1 c hc
    by_cases het : e = fs₀.entry j.target
    · subst het
      rw [upd_self]
      exact ⟨out, ht, .next hs hi hj rfl hv⟩
    · rw [upd_other _ _ het]
      obtain ⟨new, e1, e2⟩ := h.file e h1 c hc
      exact ⟨new, (hn e (h1 j hm) het).trans e1, e2⟩
  · intro k l hl
    by_cases hk : k = i
    · subst hk
      obtain rfl := Option.some.inj (hj.symm.trans hl)
      simp only [upd_self, if_true]
      exact hx
    · simp only [upd_other _ _ hk, hk, if_false]
      exact (h.reached k l hl).transfer (hn _ (hr.temp_ne hl hj hk) (hr.apart l (List.mem_of_getElem? hl) j hm).1)
  · intro k hk
    have : k ≠ i := by
      rintro rfl
      rw [hj] at hk
      cases hk
    simp only [this, if_false]
    exact h.idle k hk
  · intro e k hk
    by_cases hki : k = i
    · subst hki
      rw [upd_self]
      exact .inl rfl
    · rw [upd_other _ _ hki]
      by_cases het : e = fs₀.entry j.target
      · subst het
        rw [upd_self] at hk
        rcases List.mem_append.1 hk with hk | hk
        · exact hsput k hk
        · exact absurd (List.mem_singleton.1 hk) hki
      · rw [upd_other _ _ het] at hk
        exact h.had e k hk
  · intro k l hl
    by_cases hli : l = i
    · subst hli
      rw [upd_self]
      exact .inl rfl
    · rw [upd_other _ _ hli]
      by_cases hki : k = i
      · subst hki
        rw [upd_self] at hl
        cases hl
      · rw [upd_other _ _ hki] at hl
        exact h.seen k l hl

/-- A turn, by what the operation can do. -/
theorem Machine.turn_sat {i : Nat} {β : Type} {op : Sys β} {next : β → Steps Unit} (h : (m.proc i).rest = .step op next)
    {Q : Machine → Prop}
    (hq : op.Sat ⟨m.fs, (m.proc i).faults, (m.proc i).stdout⟩ fun r w => match r with
      | .ok b => Q ⟨w.fs, fun k => if k = i then ⟨next b, w.faults, w.stdout⟩ else m.proc k⟩
      | .error e => Q ⟨w.fs, fun k => if k = i then ⟨.ended (.error e), w.faults, w.stdout⟩ else m.proc k⟩) : Q (m.turn i) := by
  unfold Sat at hq
  cases ho : op ⟨m.fs, (m.proc i).faults, (m.proc i).stdout⟩ with
  | mk r w =>
    rw [ho] at hq
    cases r with
    | ok b => rw [turn_ok m h ho]; exact hq
    | error e => rw [turn_error m h ho]; exact hq


/-- The content of a regular file. -/
theorem FS.contentAt_file {fs : FS} {path : Path} {c : List UInt8} (h : fs.node (fs.entry path) = some (.file c)) :
    fs.contentAt path = some ⟨c, false⟩ := by
  unfold contentAt follow followFrom
  simp only [h]

theorem upd_same {α : Type u} (f : Nat → α) (i : Nat) : upd f i (f i) = f := by
  funext k
  unfold upd
  split
  · subst k; rfl
  · rfl

/-- What a process can have become after a turn. -/
def Moved (fs₀ : FS) (jobs : List Job) (cur : Nat → List Nat) (stage : Nat → Stage) (i : Nat) (j : Job) (m : Machine) : Prop :=
  ∃ x cur', Move (fs₀.entry j.target) i cur (stage i) x cur' ∧ Together fs₀ jobs m cur' (upd stage i x)

theorem Together.gone (hr : Ready fs₀ jobs) (h : Together fs₀ jobs m cur stage) {i : Nat} {j : Job} (hj : jobs[i]? = some j)
    (hd : ¬ (stage i).Late) {fs : FS} (he : fs.entry = fs₀.entry) (hn : ∀ k, k ≠ fs₀.entry j.temp → fs.node k = m.fs.node k)
    {e : Ended} (hne : e ≠ .exited 0) {fl : List Fault} {so : List UInt8} :
    Moved fs₀ jobs cur stage i j ⟨fs, fun k => if k = i then ⟨.ended (.error e), fl, so⟩ else m.proc k⟩ :=
  ⟨.gone, cur, .gone _ hd, h.own hr hj he hn ⟨e, hne, rfl⟩ (fun hl => absurd hl hd) (by intro k hk; cases hk)⟩

theorem Together.on (hr : Ready fs₀ jobs) (h : Together fs₀ jobs m cur stage) {i : Nat} {j : Job} (hj : jobs[i]? = some j)
    {x : Stage} (hmv : Move (fs₀.entry j.target) i cur (stage i) x cur) {fs : FS} (he : fs.entry = fs₀.entry)
    (hn : ∀ k, k ≠ fs₀.entry j.temp → fs.node k = m.fs.node k) {pr : Process} (hx : Reached fs₀ jobs i j fs x pr.rest)
    (hp : (stage i).Late → x.Late) (hsn : ∀ k ∈ x.seen, (stage k).Late) :
    Moved fs₀ jobs cur stage i j ⟨fs, fun k => if k = i then pr else m.proc k⟩ :=
  ⟨x, cur, hmv, h.own hr hj he hn hx hp hsn⟩

/-- One turn. -/
theorem Together.turn (hr : Ready fs₀ jobs) (h : Together fs₀ jobs m cur stage) {i : Nat} {j : Job} (hj : jobs[i]? = some j) :
    Moved fs₀ jobs cur stage i j (m.turn i) := by
  have hm := List.mem_of_getElem? hj
  have hreach := h.reached i j hj
  have hent : ∀ path, m.fs.entry path = fs₀.entry path := fun path => by rw [h.entry]
  obtain ⟨c₀, hc₀⟩ := hr.files j hm
  have happ := hr.apart j hm j hm
  have htar : ∀ l ∈ jobs, fs₀.entry j.target ≠ fs₀.entry l.temp := fun l hl e => (hr.apart l hl j hm).1 e.symm
  cases hst : stage i with
  | begin =>
    rw [hst] at hreach
    have hne : ¬ (stage i).Late := by rw [hst]; rintro (h | h | h) <;> cases h
    obtain ⟨c, hc, hcd⟩ := hr.held j hm
    have hpt : ∀ l ∈ jobs, fs₀.entry j.patch ≠ fs₀.entry l.temp := fun l hl e => (hr.apart l hl j hm).2.1 e.symm
    obtain ⟨new, hnew, hpb⟩ := h.file _ hpt c hc
    have hcn : new = c := by
      generalize hs : cur (fs₀.entry j.patch) = s at hpb
      cases hpb with
      | start h' => rw [hc] at h'; cases h'; rfl
      | next _ _ hj' ht' _ => exact absurd ht'.symm (hr.apart j hm _ (List.mem_of_getElem? hj')).2.2
    subst hcn
    have hcont : m.fs.contentAt j.patch = some ⟨new, false⟩ := FS.contentAt_file (by rw [hent]; exact hnew)
    refine Machine.turn_sat (hreach : (m.proc i).rest = pwPatchSteps ..) (sat_openFile ?_ ?_ ?_ ?_)
    · intro fl hn
      exact absurd (hn.symm.trans hcont) nofun
    · intro fl
      exact h.gone hr hj hne (by exact h.entry) (fun _ _ => rfl) (by simp)
    · rintro fl ⟨data, fails⟩ rfl
      exact h.gone hr hj hne (by exact h.entry) (fun _ _ => rfl) (by simp)
    · intro fl r hr'
      obtain rfl := Option.some.inj (hcont.symm.trans hr')
      simp only
      refine h.on hr hj (x := .opened) (by rw [hst]; exact .opened) (by exact h.entry) (fun _ _ => rfl) ?_ ?_ (by intro k hk; cases hk)
      · show Steps.bind (Steps.ofOutcome (Diff.fromReader ⟨new, false⟩)) _ = _
        rw [hcd]
        rfl
      · rw [hst]
        rintro (h | h | h) <;> cases h
  | opened =>
    rw [hst] at hreach
    have hne : ¬ (stage i).Late := by rw [hst]; rintro (h | h | h) <;> cases h
    obtain ⟨new, hnew, hpb⟩ := h.file _ htar c₀ hc₀
    have hcont : m.fs.contentAt j.target = some ⟨new, false⟩ := FS.contentAt_file (by rw [hent]; exact hnew)
    have hi : i ∉ cur (fs₀.entry j.target) := by
      intro hi
      have := h.had _ i hi
      rw [hst] at this
      rcases this with h | h | h <;> cases h
    have hlate : ∀ y : Stage, (stage i).Late → y.Late := by
      rw [hst]
      rintro y (h | h | h) <;> cases h
    have key : ∀ (α β : Type) (read : Reader → Outcome α) (apply : α → WM β),
        applyDiffSteps j.profile j.temp j.reverse j.diff = patchFileSteps j.temp j.target read apply →
        (∀ r a, read r = .ok a → r.fails = false) → (∀ a, WM.Norm (apply a)) →
        (∀ a, read ⟨new, false⟩ = .ok a → ∀ b out, (apply a).run = (.ok b, out) →
          PatchedContent j.profile j.reverse j.diff new out) → Moved fs₀ jobs cur stage i j (m.turn i) := by
      intro α β read apply heq hread hnorm hpc
      refine Machine.turn_sat ((hreach : (m.proc i).rest = applyDiffSteps ..).trans heq) (sat_openFile ?_ ?_ ?_ ?_)
      · intro fl hn
        exact absurd (hn.symm.trans hcont) nofun
      · intro fl
        exact h.gone hr hj hne (by exact h.entry) (fun _ _ => rfl) (by simp)
      · intro fl r hf
        show Moved fs₀ jobs cur stage i j ⟨m.fs, fun k => if k = i then
          ⟨Steps.bind (Steps.ofOutcome (read r)) _, fl, (m.proc i).stdout⟩ else m.proc k⟩
        have hno : ∀ a, read r ≠ .ok a := fun a ha => by
          rw [hread r a ha] at hf
          cases hf
        cases ho : read r with
        | ok a => exact absurd ho (hno a)
        | ioErr => exact h.gone hr hj hne (by exact h.entry) (fun _ _ => rfl) (by simp)
        | panic => exact h.gone hr hj hne (by exact h.entry) (fun _ _ => rfl) (by simp)
        | diverge => exact h.gone hr hj hne (by exact h.entry) (fun _ _ => rfl) (by simp)
      · intro fl r hr'
        obtain rfl := Option.some.inj (hcont.symm.trans hr')
        show Moved fs₀ jobs cur stage i j ⟨m.fs, fun k => if k = i then
          ⟨Steps.bind (Steps.ofOutcome (read ⟨new, false⟩)) _, fl, (m.proc i).stdout⟩ else m.proc k⟩
        cases ho : read ⟨new, false⟩ with
        | ok a =>
          refine h.on hr hj (x := .read (cur (fs₀.entry j.target))) (by rw [hst]; exact .read) (by exact h.entry) (fun _ _ => rfl) ?_
            (hlate _) (h.had _)
          refine ⟨β, apply a, ⟨new, hpb, hi, hnorm a, hpc a ho⟩, rfl⟩
        | ioErr => exact h.gone hr hj hne (by exact h.entry) (fun _ _ => rfl) (by simp)
        | panic => exact h.gone hr hj hne (by exact h.entry) (fun _ _ => rfl) (by simp)
        | diverge => exact h.gone hr hj hne (by exact h.entry) (fun _ _ => rfl) (by simp)
    have hch := hr.changes j hm
    cases hd : j.diff with
    | textChange d =>
      rw [hd] at hch
      have hbp : d.beforePath = j.target := Option.some.inj hch
      refine key _ _ readText (fun ls => applyInto j.profile d.clumps ls j.reverse) (by rw [hd, ← hbp]; rfl) ?_ ?_ ?_
      · intro r a h
        exact ((readText_eq_ok_iff r a).1 h).1
      · intro a
        exact norm_applyInto ..
      · intro a ha b out hrun
        obtain ⟨-, s, h2, rfl⟩ := (readText_eq_ok_iff _ a).1 ha
        rw [hd]
        exact ⟨s, b, h2, hrun⟩
    | byteChange d =>
      rw [hd] at hch
      have hbp : d.beforePath = j.target := Option.some.inj hch
      have hrb : ∀ (r : Reader) a, readBytes r = .ok a → r = ⟨a, false⟩ := by
        rintro ⟨data, fails⟩ a h
        cases fails with
        | true => cases h
        | false => cases h; rfl
      refine key _ _ readBytes (fun bs => byteApplyInto j.profile d.clumps bs j.reverse) (by rw [hd, ← hbp]; rfl) ?_ ?_ ?_
      · intro r a h
        rw [hrb r a h]
      · intro a
        exact norm_byteApplyInto ..
      · intro a ha b out hrun
        have := hrb _ _ ha
        cases this
        rw [hd]
        exact hrun
    | textAdd d => rw [hd] at hch; cases hch
    | textRemove d => rw [hd] at hch; cases hch
    | byteAdd d => rw [hd] at hch; cases hch
    | byteRemove d => rw [hd] at hch; cases hch
  | read s =>
    rw [hst] at hreach
    have hne : ¬ (stage i).Late := by rw [hst]; rintro (h | h | h) <;> cases h
    have hlate : ∀ y : Stage, (stage i).Late → y.Late := by
      rw [hst]
      rintro y (h | h | h) <;> cases h
    obtain ⟨β, wm, hsrc, hrest⟩ := hreach
    refine Machine.turn_sat (hrest : (m.proc i).rest = patchContentSteps ..) (sat_createNew ?_ ?_ ?_)
    · intro fl
      exact h.gone hr hj hne (by exact h.entry) (fun _ _ => rfl) (by simp)
    · intro fl
      exact h.gone hr hj hne (by exact h.entry) (fun _ _ => rfl) (by simp)
    · intro fl hfree
      refine h.on hr hj (x := .made s) (by rw [hst]; exact .made s) (by exact h.entry) ?_ ⟨β, wm, hsrc, ?_, ?_⟩ (hlate _) ?_
      · intro k hk
        simp only [hent, FS.set_node, hk, if_false]
      · show Steps.step _ _ = Steps.step _ _
        congr 1
        funext o
        cases o <;> rfl
      · simp only [hent, FS.set_node, if_true]
      · have := h.seen i
        rwa [hst] at this
  | made s =>
    rw [hst] at hreach
    have hne : ¬ (stage i).Late := by rw [hst]; rintro (h | h | h) <;> cases h
    have hlate : ∀ y : Stage, (stage i).Late → y.Late := by
      rw [hst]
      rintro y (h | h | h) <;> cases h
    obtain ⟨β, wm, hsrc, hrest, htemp⟩ := hreach
    refine Machine.turn_sat hrest (sat_create (c := []) (by rw [hent]; exact htemp) ?_ ?_ ?_)
    · intro fl
      exact h.gone hr hj hne (by exact h.entry) (fun _ _ => rfl) (by simp)
    · intro fl
      exact h.gone hr hj hne (by exact h.entry) (fun _ _ => rfl) (by simp)
    · intro fl
      refine h.on hr hj (x := .emptied s) (by rw [hst]; exact .emptied s) (by exact h.entry) ?_ ⟨β, wm, hsrc, ?_, ?_⟩ (hlate _) ?_
      · intro k hk
        simp only [hent, FS.set_node, hk, if_false]
      · simp only [hent]
      · simp only [hent, FS.set_node, if_true]
      · have := h.seen i
        rwa [hst] at this
  | emptied s =>
    rw [hst] at hreach
    have hne : ¬ (stage i).Late := by rw [hst]; rintro (h | h | h) <;> cases h
    have hlate : ∀ y : Stage, (stage i).Late → y.Late := by
      rw [hst]
      rintro y (h | h | h) <;> cases h
    obtain ⟨β, wm, ⟨v, hpb, hi, hnorm, hpc⟩, hrest, htemp⟩ := hreach
    have hseen : ∀ k ∈ s, (stage k).Late := by
      have := h.seen i
      rwa [hst] at this
    have wrote : ∀ (o : Outcome β) (out : List UInt8) (fl : List Fault) (so : List UInt8),
        (∀ b, o = .ok b → wm.run = (.ok b, out)) →
        Moved fs₀ jobs cur stage i j ⟨m.fs.set (fs₀.entry j.temp) (some (.file out)), fun k => if k = i then
          ⟨finishPatchSteps j.temp j.target o, fl, so⟩ else m.proc k⟩ := by
      intro o out fl so hout
      have hn : ∀ k, k ≠ fs₀.entry j.temp → (m.fs.set (fs₀.entry j.temp) (some (.file out))).node k = m.fs.node k := by
        intro k hk
        simp only [FS.set_node, hk, if_false]
      cases o with
      | ok b =>
        refine h.on hr hj (x := .written s) (by rw [hst]; exact .written s) (by exact h.entry) hn ?_ (hlate _) hseen
        refine ⟨β, b, v, out, hpb, hi, hpc b out (hout b rfl), rfl, ?_⟩
        simp only [FS.set_node, if_true]
      | ioErr => exact h.gone hr hj hne (by exact h.entry) hn (by simp)
      | diverge => exact h.gone hr hj hne (by exact h.entry) hn (by simp)
      | panic => exact h.on hr hj (x := .broken) (by rw [hst]; exact .broken s) (by exact h.entry) hn rfl (hlate _) (by intro k hk; cases hk)
    refine Machine.turn_sat hrest (sat_writeFile ?_ ?_ ?_)
    · intro fl
      exact wrote _ _ fl _ fun b hb => Prod.ext hb rfl
    · intro fl n
      exact wrote _ _ fl _ fun b hb => norm_limited hnorm n hb
    · intro fl n
      refine h.gone hr hj hne (by exact h.entry) ?_ (by simp)
      intro k hk
      simp only [FS.set_node, hk, if_false]
  | written s =>
    rw [hst] at hreach
    have hne : ¬ (stage i).Late := by rw [hst]; rintro (h | h | h) <;> cases h
    obtain ⟨β, b, v, out, hpb, hi, hv, hrest, htemp⟩ := hreach
    have hseen : ∀ k ∈ s, (stage k).Late := by
      have := h.seen i
      rwa [hst] at this
    refine Machine.turn_sat (hrest : (m.proc i).rest = finishPatchSteps ..)
      (sat_rename (by simp only [hent]; exact happ.1) (by simp only [hent, htemp]; exact nofun) ?_ ?_ ?_)
    · intro fl
      exact h.gone hr hj hne (by exact h.entry) (fun _ _ => rfl) (by simp)
    · intro fl
      exact h.gone hr hj hne (by exact h.entry) (fun _ _ => rfl) (by simp)
    · intro fl _
      refine ⟨.put, _, by rw [hst]; exact .put s, h.renamed hr hj hpb hi hv h.entry ?_ ?_ rfl hseen⟩
      · intro k h1 h2
        simp only [hent, FS.set_node, h1, h2, if_false]
      · simp only [hent, FS.set_node, if_true, htemp]
        rw [if_neg happ.1.symm]
  | broken =>
    rw [hst] at hreach
    have hne : ¬ (stage i).Late := by rw [hst]; rintro (h | h | h) <;> cases h
    refine Machine.turn_sat (hreach : (m.proc i).rest = .step ..) (sat_operation ?_ ?_ ?_)
    · intro fl
      simp only
      split
      · exact h.gone hr hj hne (by exact h.entry) (fun _ _ => rfl) (by simp)
      · refine h.gone hr hj hne (by exact h.entry) ?_ (by simp)
        intro k hk
        simp only [hent, FS.set_node, hk, if_false]
    · intro fl n
      exact h.gone hr hj hne (by exact h.entry) (fun _ _ => rfl) (by simp)
    · intro fl n
      exact h.gone hr hj hne (by exact h.entry) (fun _ _ => rfl) (by simp)
  | put =>
    rw [hst] at hreach
    have fin : ∀ (fs : FS) (fl : List Fault) (so : List UInt8), fs.entry = fs₀.entry →
        (∀ k, k ≠ fs₀.entry j.temp → fs.node k = m.fs.node k) → Moved fs₀ jobs cur stage i j
          ⟨fs, fun k => if k = i then ⟨.ended (.ok ()), fl, so⟩ else m.proc k⟩ := fun fs fl so h1 h2 =>
      h.on hr hj (x := .done) (by rw [hst]; exact .done) h1 h2 rfl (fun _ => .inr (.inl rfl)) (by intro k hk; cases hk)
    refine Machine.turn_sat (hreach : (m.proc i).rest = .step ..) (sat_operation ?_ ?_ ?_)
    · intro fl
      simp only
      split
      · exact fin _ _ _ h.entry (fun _ _ => rfl)
      · refine fin _ _ _ h.entry ?_
        intro k hk
        simp only [hent, FS.set_node, hk, if_false]
    · intro fl n
      exact fin _ _ _ h.entry (fun _ _ => rfl)
    · intro fl n
      exact h.on hr hj (x := .stopped) (by rw [hst]; exact .stopped) (by exact h.entry) (fun _ _ => rfl) rfl
        (fun _ => .inr (.inr rfl)) (by intro k hk; cases hk)
  | done =>
    rw [hst] at hreach
    rw [Machine.turn_ended m (hreach : _ = _)]
    exact ⟨.done, cur, by rw [hst]; exact .over _ (.inl rfl), by rw [← hst, upd_same]; exact h⟩
  | stopped =>
    rw [hst] at hreach
    rw [Machine.turn_ended m (hreach : _ = _)]
    exact ⟨.stopped, cur, by rw [hst]; exact .over _ (.inr (.inl rfl)), by rw [← hst, upd_same]; exact h⟩
  | gone =>
    rw [hst] at hreach
    obtain ⟨e, he, hre⟩ := hreach
    rw [Machine.turn_ended m hre]
    exact ⟨.gone, cur, by rw [hst]; exact .over _ (.inr (.inr rfl)), by rw [← hst, upd_same]; exact h⟩

end PwDiff
