import Verif.Proofs.Together

/-! # Several runs of `pw_patch` that create and remove files at the same time -/

namespace PwDiff

open Sys Steps

/-- The run is to create its file with this content. -/
def Job.Creates (j : Job) (c : List UInt8) : Prop := j.diff.creates j.reverse = some (j.target, c)

/-- The run is to remove its file. -/
def Job.Deletes (j : Job) : Prop := j.diff.deletes j.reverse = some j.target

/-- The patch files are there, each run is to create or to remove a file, and no file is to be both created and removed. -/
structure Placing (fs : FS) (jobs : List Job) : Prop where
  held : ∀ j ∈ jobs, ∃ c, fs.node (fs.entry j.patch) = some (.file c) ∧ Diff.fromReader ⟨c, false⟩ = .ok j.diff
  kind : ∀ j ∈ jobs, (∃ c, j.Creates c) ∨ j.Deletes
  apart : ∀ j ∈ jobs, ∀ k ∈ jobs, fs.entry j.patch ≠ fs.entry k.target
  either : ∀ j ∈ jobs, ∀ k ∈ jobs, (∃ c, j.Creates c) → k.Deletes → fs.entry j.target ≠ fs.entry k.target

/-- How far a run has come. -/
inductive Phase where
  | begin
  | opened
  | created
  | over
deriving DecidableEq

/-- What is left to do, and what holds of the file of the run.  `owner`: who has created or removed it. -/
def PlacingAt (fs₀ : FS) (faults : Nat → List Fault) (i : Nat) (j : Job) (node : Option Node) (owner : Option Nat) :
    Phase → Process → Prop
  | .begin, r => r.rest = pwPatchSteps j.profile j.temp j.patch j.reverse ∧ owner ≠ some i ∧ (faults i = [] → r.faults = [])
  | .opened, r => r.rest = applyDiffSteps j.profile j.temp j.reverse j.diff ∧ owner ≠ some i ∧ (faults i = [] → r.faults = [])
  | .created, r => ∃ c, j.Creates c ∧
      r.rest = .step (writeFile (fs₀.entry j.target) (WM.emit c (.ok ()))) (fun _ => .ended (.ok ())) ∧ owner = some i ∧
      node = some (.file []) ∧ (faults i = [] → r.faults = [])
  | .over, r => ∃ e, r.rest = .ended e ∧ (∀ c, j.Creates c → faults i = [] → node ≠ none ∧ (owner = some i → node = some (.file c))) ∧
      (j.Deletes → (e = .ok () ↔ owner = some i) ∧ (faults i = [] → e = .ok () ∨
        e = .error (.exited 1) ∧ (owner ≠ none ∨ fs₀.node (fs₀.entry j.target) = none ∨ fs₀.node (fs₀.entry j.target) = some .dir)))

/-- The state of affairs. -/
structure Placed (fs₀ : FS) (jobs : List Job) (faults : Nat → List Fault) (m : Machine) (phase : Nat → Phase)
    (owner : Nat → Option Nat) : Prop where
  entry : m.fs.entry = fs₀.entry
  free : ∀ e, owner e = none → m.fs.node e = fs₀.node e
  owned : ∀ e i, owner e = some i → ∃ j, jobs[i]? = some j ∧ fs₀.entry j.target = e ∧
    (∀ c, j.Creates c → fs₀.node e = none ∧ ∃ n, m.fs.node e = some (.file (c.take n))) ∧
    (j.Deletes → m.fs.node e = none ∧ fs₀.node e ≠ none ∧ fs₀.node e ≠ some .dir)
  at_ : ∀ i j, jobs[i]? = some j →
    PlacingAt fs₀ faults i j (m.fs.node (fs₀.entry j.target)) (owner (fs₀.entry j.target)) (phase i) (m.proc i)
  idle : ∀ i, jobs[i]? = none → (m.proc i).rest = .ended (.ok ())

variable {fs₀ : FS} {jobs : List Job} {faults : Nat → List Fault} {m : Machine} {phase : Nat → Phase} {owner : Nat → Option Nat}

theorem Placed.start (fs : FS) (jobs : List Job) (faults : Nat → List Fault) :
    Placed fs jobs faults (Machine.start fs jobs faults) (fun _ => .begin) (fun _ => none) := by
  refine ⟨rfl, fun _ _ => rfl, (fun e i h => by cases h), ?_, ?_⟩
  · intro i j hj
    simp only [PlacingAt, Machine.start, hj]
    exact ⟨trivial, nofun, id⟩
  · intro i hi
    simp only [Machine.start, hi]

/-- Nobody owns the patch files. -/
theorem Placed.patch (hr : Placing fs₀ jobs) (h : Placed fs₀ jobs faults m phase owner) {j : Job} (hj : j ∈ jobs) :
    ∃ c, m.fs.contentAt j.patch = some ⟨c, false⟩ ∧ Diff.fromReader ⟨c, false⟩ = .ok j.diff := by
  obtain ⟨c, h1, h2⟩ := hr.held j hj
  refine ⟨c, FS.contentAt_file ?_, h2⟩
  rw [h.entry, h.free _ ?_]
  · exact h1
  · cases ho : owner (fs₀.entry j.patch) with
    | none => rfl
    | some k =>
      obtain ⟨l, k1, k2, -⟩ := h.owned _ k ho
      exact absurd k2.symm (hr.apart j hj l (List.mem_of_getElem? k1))

/-- A turn without consequences for the files. -/
theorem Placed.quiet (h : Placed fs₀ jobs faults m phase owner) {i : Nat} {j : Job} (hj : jobs[i]? = some j) {x : Phase}
    {pr : Process} {fs : FS} (hfs : fs = m.fs)
    (hx : PlacingAt fs₀ faults i j (m.fs.node (fs₀.entry j.target)) (owner (fs₀.entry j.target)) x pr) :
    Placed fs₀ jobs faults ⟨fs, fun k => if k = i then pr else m.proc k⟩ (upd phase i x) owner := by
  subst hfs
  refine ⟨h.entry, h.free, h.owned, ?_, ?_⟩
  · intro k l hl
    by_cases hk : k = i
    · subst hk
      obtain rfl := Option.some.inj (hj.symm.trans hl)
      simp only [upd_self, if_true]
      exact hx
    · simp only [upd_other _ _ hk, hk, if_false]
      exact h.at_ k l hl
  · intro k hk
    have : k ≠ i := by
      rintro rfl
      rw [hj] at hk
      cases hk
    simp only [this, if_false]
    exact h.idle k hk

/-- A turn in which the run creates, writes or removes its file. -/
theorem Placed.place (hr : Placing fs₀ jobs) (h : Placed fs₀ jobs faults m phase owner) {i : Nat} {j : Job} (hj : jobs[i]? = some j)
    {x : Phase} {pr : Process} {fs : FS} (he : fs.entry = fs₀.entry) (hn : ∀ k, k ≠ fs₀.entry j.target → fs.node k = m.fs.node k)
    (ho : owner (fs₀.entry j.target) = none ∨ owner (fs₀.entry j.target) = some i)
    (hc : ∀ c, j.Creates c → fs₀.node (fs₀.entry j.target) = none ∧ ∃ n, fs.node (fs₀.entry j.target) = some (.file (c.take n)))
    (hd : j.Deletes → fs.node (fs₀.entry j.target) = none ∧ fs₀.node (fs₀.entry j.target) ≠ none ∧
      fs₀.node (fs₀.entry j.target) ≠ some .dir)
    (hx : PlacingAt fs₀ faults i j (fs.node (fs₀.entry j.target)) (some i) x pr) :
    Placed fs₀ jobs faults ⟨fs, fun k => if k = i then pr else m.proc k⟩ (upd phase i x) (upd owner (fs₀.entry j.target) (some i)) := by
  have hm := List.mem_of_getElem? hj
  refine ⟨he, ?_, ?_, ?_, ?_⟩
  · intro e h1
    by_cases het : e = fs₀.entry j.target
    · subst het; rw [upd_self] at h1; cases h1
    · rw [upd_other _ _ het] at h1
      exact (hn e het).trans (h.free e h1)
  · intro e k h1
    by_cases het : e = fs₀.entry j.target
    · subst het
      rw [upd_self] at h1
      obtain rfl := Option.some.inj h1
      exact ⟨j, hj, rfl, hc, hd⟩
    · rw [upd_other _ _ het] at h1
      obtain ⟨l, k1, k2, k3, k4⟩ := h.owned e k h1
      refine ⟨l, k1, k2, ?_, ?_⟩
      · intro c hl
        obtain ⟨m1, n, m2⟩ := k3 c hl
        exact ⟨m1, n, (hn e het).trans m2⟩
      · intro hl
        obtain ⟨m1, m2⟩ := k4 hl
        exact ⟨(hn e het).trans m1, m2⟩
  · intro k l hl
    by_cases hk : k = i
    · subst hk
      obtain rfl := Option.some.inj (hj.symm.trans hl)
      simp only [upd_self, if_true]
      exact hx
    · simp only [upd_other _ _ hk, hk, if_false]
      have hat := h.at_ k l hl
      by_cases het : fs₀.entry l.target = fs₀.entry j.target
      · rw [het] at hat ⊢
        rw [upd_self]
        have hik : some i ≠ some k := fun e => hk (Option.some.inj e).symm
        have hok : owner (fs₀.entry j.target) ≠ some k := by
          rcases ho with e | e <;> rw [e]
          · nofun
          · exact hik
        cases hp : phase k with
        | begin => rw [hp] at hat; exact ⟨hat.1, hik, hat.2.2⟩
        | opened => rw [hp] at hat; exact ⟨hat.1, hik, hat.2.2⟩
        | created =>
          rw [hp] at hat
          obtain ⟨c, -, -, e, -⟩ := hat
          exact absurd e hok
        | over =>
          rw [hp] at hat
          obtain ⟨e, k1, k2, k3⟩ := hat
          refine ⟨e, k1, ?_, ?_⟩
          · intro c hlc hf
            refine ⟨?_, fun e => absurd e hik⟩
            rcases hr.kind j hm with ⟨c', hjc⟩ | hjd
            · obtain ⟨-, n, e⟩ := hc c' hjc
              rw [e]; nofun
            · exact absurd het (hr.either l (List.mem_of_getElem? hl) j hm ⟨c, hlc⟩ hjd)
          · intro hld
            obtain ⟨m1, m2⟩ := k3 hld
            refine ⟨?_, ?_⟩
            · rw [m1]
              exact iff_of_false hok hik
            · intro hf
              rcases m2 hf with e | ⟨e, -⟩
              · exact absurd (m1.1 e) hok
              · exact .inr ⟨e, .inl nofun⟩
      · rw [hn _ het, upd_other _ _ het]
        exact hat
  · intro k hk
    have : k ≠ i := by
      rintro rfl
      rw [hj] at hk
      cases hk
    simp only [this, if_false]
    exact h.idle k hk

/-- A turn, by what can happen at the operation. -/
theorem Machine.turn_operation {i : Nat} {β : Type} {normal : World → β × World} {failing : Nat → World → β × World}
    {killed : Nat → World → World} {next : β → Steps Unit} (h : (m.proc i).rest = .step (operation normal failing killed) next)
    {Q : Machine → Prop}
    (hn : ∀ fl, ((m.proc i).faults = [] → fl = []) → Q ⟨(normal ⟨m.fs, fl, (m.proc i).stdout⟩).2.fs, fun k => if k = i then
      ⟨next (normal ⟨m.fs, fl, (m.proc i).stdout⟩).1, (normal ⟨m.fs, fl, (m.proc i).stdout⟩).2.faults,
        (normal ⟨m.fs, fl, (m.proc i).stdout⟩).2.stdout⟩ else m.proc k⟩)
    (hf : (m.proc i).faults ≠ [] → ∀ n fl, Q ⟨(failing n ⟨m.fs, fl, (m.proc i).stdout⟩).2.fs, fun k => if k = i then
      ⟨next (failing n ⟨m.fs, fl, (m.proc i).stdout⟩).1, (failing n ⟨m.fs, fl, (m.proc i).stdout⟩).2.faults,
        (failing n ⟨m.fs, fl, (m.proc i).stdout⟩).2.stdout⟩ else m.proc k⟩)
    (hk : (m.proc i).faults ≠ [] → ∀ n fl, Q ⟨(killed n ⟨m.fs, fl, (m.proc i).stdout⟩).fs, fun k => if k = i then
      ⟨.ended (.error .killed), (killed n ⟨m.fs, fl, (m.proc i).stdout⟩).faults,
        (killed n ⟨m.fs, fl, (m.proc i).stdout⟩).stdout⟩ else m.proc k⟩) : Q (m.turn i) := by
  cases hfl : (m.proc i).faults with
  | nil =>
    have ho : operation normal failing killed ⟨m.fs, (m.proc i).faults, (m.proc i).stdout⟩ = (.ok (normal ⟨m.fs, [], (m.proc i).stdout⟩).1, (normal ⟨m.fs, [], (m.proc i).stdout⟩).2) := by
      rw [hfl]; exact rfl
    rw [turn_ok m h ho]
    exact hn [] (fun _ => rfl)
  | cons x fl =>
    have hne : (m.proc i).faults ≠ [] := by rw [hfl]; nofun
    cases x with
    | none =>
      have ho : operation normal failing killed ⟨m.fs, (m.proc i).faults, (m.proc i).stdout⟩ = (.ok (normal ⟨m.fs, fl, (m.proc i).stdout⟩).1, (normal ⟨m.fs, fl, (m.proc i).stdout⟩).2) := by
        rw [hfl]; exact rfl
      rw [turn_ok m h ho]
      exact hn fl (fun e => absurd e hne)
    | fail n =>
      have ho : operation normal failing killed ⟨m.fs, (m.proc i).faults, (m.proc i).stdout⟩ = (.ok (failing n ⟨m.fs, fl, (m.proc i).stdout⟩).1, (failing n ⟨m.fs, fl, (m.proc i).stdout⟩).2) := by
        rw [hfl]; exact rfl
      rw [turn_ok m h ho]
      exact hf hne n fl
    | kill n =>
      have ho : operation normal failing killed ⟨m.fs, (m.proc i).faults, (m.proc i).stdout⟩ = (.error .killed, killed n ⟨m.fs, fl, (m.proc i).stdout⟩) := by
        rw [hfl]; exact rfl
      rw [turn_error m h ho]
      exact hk hne n fl

theorem applyDiffSteps_creates (p : Profile) (temp : Path) {rev : Bool} {d : Diff} {path : Path} {content : List UInt8}
    (h : d.creates rev = some (path, content)) :
    applyDiffSteps p temp rev d = addFileSteps path (WM.emit content (.ok ())) := by
  have hl : ∀ e : PathAndLines, e.writeInto = WM.emit (e.lines.flatMap Str.bytes) (.ok ()) := fun e => by
    unfold PathAndLines.writeInto
    rw [writeStrs_eq, WM.writeAll_eq_emit]
  have hb : ∀ e : PathAndBytes, e.writeInto = WM.emit e.bytes (.ok ()) := fun e => by
    unfold PathAndBytes.writeInto
    rw [WM.writeAll_eq_emit]
  cases d <;> cases rev <;> simp only [Diff.creates, applyDiffSteps, if_true, Bool.false_eq_true, if_false] at h ⊢ <;>
    first
    | (cases h; done)
    | (cases h; first | rw [hl] | rw [hb])

theorem applyDiffSteps_deletes (p : Profile) (temp : Path) {rev : Bool} {d : Diff} {path : Path} (h : d.deletes rev = some path) :
    applyDiffSteps p temp rev d = deleteFileSteps path := by
  cases d <;> cases rev <;> simp only [Diff.deletes, applyDiffSteps, if_true, Bool.false_eq_true, if_false] at h ⊢ <;>
    first
    | (cases h; done)
    | (cases h; rfl)

theorem Job.not_both {j : Job} {c : List UInt8} (h : j.Creates c) (h' : j.Deletes) : False := by
  unfold Job.Creates at h
  unfold Job.Deletes at h'
  cases hd : j.diff <;> cases hv : j.reverse <;> rw [hd, hv] at h h' <;> first | cases h | cases h'

theorem Job.Creates.one {j : Job} {c c' : List UInt8} (h : j.Creates c) (h' : j.Creates c') : c = c' := by
  have := h.symm.trans h'
  cases this; rfl

/-- What one turn can do: owners stay, and files that have been created only grow. -/
structure Onward (fs₀ : FS) (jobs : List Job) (owner owner' : Nat → Option Nat) (m m' : Machine) : Prop where
  stays : ∀ e k, owner e = some k → owner' e = some k
  grows : ∀ e k j c, owner e = some k → jobs[k]? = some j → j.Creates c → ∀ a, m.fs.node e = some (.file a) →
    ∃ b, m'.fs.node e = some (.file b) ∧ a <+: b

theorem Onward.refl (fs₀ : FS) (jobs : List Job) (owner : Nat → Option Nat) (m : Machine) {m' : Machine} (h : m'.fs = m.fs) :
    Onward fs₀ jobs owner owner m m' :=
  ⟨fun _ _ h => h, fun _ _ _ _ _ _ _ a h' => ⟨a, by rw [h]; exact h', List.prefix_refl _⟩⟩

/-- One turn. -/
theorem Placed.turn (hr : Placing fs₀ jobs) (h : Placed fs₀ jobs faults m phase owner) (i : Nat) :
    ∃ phase' owner', Placed fs₀ jobs faults (m.turn i) phase' owner' ∧ Onward fs₀ jobs owner owner' m (m.turn i) := by
  cases hj : jobs[i]? with
  | none =>
    rw [m.turn_ended (h.idle i hj)]
    exact ⟨phase, owner, h, .refl _ _ _ _ rfl⟩
  | some j =>
    have hm := List.mem_of_getElem? hj
    have hat := h.at_ i j hj
    have hent : ∀ path, m.fs.entry path = fs₀.entry path := fun path => by rw [h.entry]
    -- a turn without consequences
    have still : ∀ {pr : Process} {x : Phase},
        PlacingAt fs₀ faults i j (m.fs.node (fs₀.entry j.target)) (owner (fs₀.entry j.target)) x pr →
        ∃ phase' owner', Placed fs₀ jobs faults ⟨m.fs, fun k => if k = i then pr else m.proc k⟩ phase' owner' ∧
          Onward fs₀ jobs owner owner' m ⟨m.fs, fun k => if k = i then pr else m.proc k⟩ :=
      fun hx => ⟨_, _, h.quiet hj rfl hx, .refl _ _ _ _ rfl⟩
    -- an end without success
    have fails : ∀ {e : Ended} {fl : List Fault} {so : List UInt8}, owner (fs₀.entry j.target) ≠ some i → faults i ≠ [] →
        PlacingAt fs₀ faults i j (m.fs.node (fs₀.entry j.target)) (owner (fs₀.entry j.target)) .over ⟨.ended (.error e), fl, so⟩ := by
      intro e fl so ho hf
      refine ⟨_, rfl, fun c hc k => absurd k hf, fun _ => ⟨iff_of_false (by nofun) ho, fun k => absurd k hf⟩⟩
    cases hp : phase i with
    | begin =>
      rw [hp] at hat
      obtain ⟨hrest, hown, hfl⟩ := hat
      obtain ⟨c, hc, hcd⟩ := h.patch hr hm
      have hff : (m.proc i).faults ≠ [] → faults i ≠ [] := fun k e => k (hfl e)
      refine Machine.turn_operation (Q := fun m' => ∃ phase' owner', Placed fs₀ jobs faults m' phase' owner' ∧
        Onward fs₀ jobs owner owner' m m') (hrest : _ = pwPatchSteps ..) ?_ ?_ ?_
      · intro fl hn
        simp only [hc]
        refine still (x := .opened) ⟨?_, hown, fun e => hn (hfl e)⟩
        show Steps.bind (Steps.ofOutcome (Diff.fromReader ⟨c, false⟩)) _ = _
        rw [hcd]
        rfl
      · intro hne n fl
        simp only [hc, Option.map_some]
        exact still (fails hown (hff hne))
      · intro hne n fl
        exact still (fails hown (hff hne))
    | opened =>
      rw [hp] at hat
      obtain ⟨hrest, hown, hfl⟩ := hat
      have hff : (m.proc i).faults ≠ [] → faults i ≠ [] := fun k e => k (hfl e)
      rcases hr.kind j hm with ⟨c, hc⟩ | hd
      · rw [applyDiffSteps_creates _ _ hc] at hrest
        have nodel : ¬ j.Deletes := fun k => Job.not_both hc k
        refine Machine.turn_operation (Q := fun m' => ∃ phase' owner', Placed fs₀ jobs faults m' phase' owner' ∧
        Onward fs₀ jobs owner owner' m m') (hrest : _ = addFileSteps ..) ?_ ?_ ?_
        · intro fl hn
          simp only [hent]
          by_cases hs : (m.fs.node (fs₀.entry j.target)).isSome
          · rw [if_pos hs]
            refine still (x := .over) ⟨.ok (), rfl, fun c' hc' hf => ⟨?_, fun e => absurd e hown⟩, fun k => absurd k nodel⟩
            intro e; rw [e] at hs; cases hs
          · rw [if_neg hs]
            have hnone : m.fs.node (fs₀.entry j.target) = none := by simpa using hs
            have ho : owner (fs₀.entry j.target) = none := by
              cases ho : owner (fs₀.entry j.target) with
              | none => rfl
              | some k =>
                obtain ⟨l, k1, k2, k3, k4⟩ := h.owned _ k ho
                rcases hr.kind l (List.mem_of_getElem? k1) with ⟨c', hl⟩ | hl
                · obtain ⟨-, n, e⟩ := k3 c' hl
                  rw [e] at hnone; cases hnone
                · exact absurd k2.symm (hr.either j hm l (List.mem_of_getElem? k1) ⟨c, hc⟩ hl)
            refine ⟨_, _, h.place hr hj (x := .created) (by exact h.entry) ?_ (.inl ho) ?_ (fun k => absurd k nodel) ?_, ?_, ?_⟩
            · intro k hk; simp [FS.set, hk]
            · intro c' hc'
              refine ⟨by rw [← h.free _ ho]; exact hnone, 0, ?_⟩
              simp [FS.set]
            · exact ⟨c, hc, rfl, rfl, by simp [FS.set], fun e => hn (hfl e)⟩
            · intro e k hk
              by_cases het : e = fs₀.entry j.target
              · subst het; rw [ho] at hk; cases hk
              · rw [upd_other _ _ het]; exact hk
            · intro e k l c' hk _ _ a ha
              by_cases het : e = fs₀.entry j.target
              · subst het; rw [ho] at hk; cases hk
              · exact ⟨a, by simp [FS.set, het, ha], List.prefix_refl _⟩
        · intro hne n fl
          refine still (x := .over) ⟨.ok (), rfl, fun c' hc' hf => absurd hf (hff hne), fun k => absurd k nodel⟩
        · intro hne n fl
          exact still (fails hown (hff hne))
      · rw [applyDiffSteps_deletes _ _ hd] at hrest
        have nocre : ∀ c, ¬ j.Creates c := fun c k => Job.not_both k hd
        refine Machine.turn_operation (Q := fun m' => ∃ phase' owner', Placed fs₀ jobs faults m' phase' owner' ∧
        Onward fs₀ jobs owner owner' m m') (hrest : _ = deleteFileSteps ..) ?_ ?_ ?_
        · intro fl hn
          simp only [hent]
          by_cases hs : m.fs.node (fs₀.entry j.target) = none ∨ m.fs.node (fs₀.entry j.target) = some .dir
          · rw [if_pos hs]
            refine still (x := .over) ⟨.error (.exited 1), rfl, fun c' hc' => absurd hc' (nocre c'), fun _ =>
              ⟨iff_of_false (by nofun) hown, fun hf => .inr ⟨rfl, ?_⟩⟩⟩
            cases ho : owner (fs₀.entry j.target) with
            | none => rw [h.free _ ho] at hs; exact .inr hs
            | some k => exact .inl nofun
          · rw [if_neg hs]
            have ho : owner (fs₀.entry j.target) = none := by
              cases ho : owner (fs₀.entry j.target) with
              | none => rfl
              | some k =>
                obtain ⟨l, k1, k2, k3, k4⟩ := h.owned _ k ho
                rcases hr.kind l (List.mem_of_getElem? k1) with ⟨c', hl⟩ | hl
                · exact absurd k2 (hr.either l (List.mem_of_getElem? k1) j hm ⟨c', hl⟩ hd)
                · exact absurd (.inl (k4 hl).1) hs
            refine ⟨_, _, h.place hr hj (x := .over) (by exact h.entry) ?_ (.inl ho) (fun c k => absurd k (nocre c)) ?_ ?_, ?_, ?_⟩
            · intro k hk; simp [FS.set, hk]
            · intro _
              rw [← h.free _ ho]
              exact ⟨by simp [FS.set], fun e => hs (.inl e), fun e => hs (.inr e)⟩
            · refine ⟨.ok (), rfl, fun c' hc' => absurd hc' (nocre c'), fun _ => ⟨iff_of_true rfl rfl, fun _ => .inl rfl⟩⟩
            · intro e k hk
              by_cases het : e = fs₀.entry j.target
              · subst het; rw [ho] at hk; cases hk
              · rw [upd_other _ _ het]; exact hk
            · intro e k l c' hk _ _ a ha
              by_cases het : e = fs₀.entry j.target
              · subst het; rw [ho] at hk; cases hk
              · exact ⟨a, by simp [FS.set, het, ha], List.prefix_refl _⟩
        · intro hne n fl
          exact still (fails hown (hff hne))
        · intro hne n fl
          exact still (fails hown (hff hne))
    | created =>
      rw [hp] at hat
      obtain ⟨c, hc, hrest, hown, hnode, hfl⟩ := hat
      have hff : (m.proc i).faults ≠ [] → faults i ≠ [] := fun k e => k (hfl e)
      have nodel : ¬ j.Deletes := fun k => Job.not_both hc k
      obtain ⟨l, k1, k2, k3, -⟩ := h.owned _ i hown
      obtain rfl := Option.some.inj (hj.symm.trans k1)
      have hold := (k3 c hc).1
      -- writing some of the content
      have writes : ∀ (out : List UInt8) (n : Nat) (pr : Process) (e : Except Ended Unit), out = c.take n → pr.rest = .ended e →
          (faults i = [] → out = c) → ∃ phase' owner',
            Placed fs₀ jobs faults ⟨m.fs.set (fs₀.entry j.target) (some (.file out)), fun k => if k = i then pr else m.proc k⟩ phase' owner' ∧
            Onward fs₀ jobs owner owner' m ⟨m.fs.set (fs₀.entry j.target) (some (.file out)), fun k => if k = i then pr else m.proc k⟩ := by
        intro out n pr e hout hpr hall
        refine ⟨_, _, h.place hr hj (x := .over) (by exact h.entry) ?_ (.inr hown) ?_ (fun k => absurd k nodel) ?_, ?_, ?_⟩
        · intro k hk; simp [FS.set, hk]
        · intro c' hc'
          obtain rfl := hc.one hc'
          exact ⟨hold, n, by simp [FS.set, hout]⟩
        · refine ⟨e, hpr, ?_, fun k => absurd k nodel⟩
          intro c' hc' hf
          obtain rfl := hc.one hc'
          exact ⟨by simp [FS.set], fun _ => by simp [FS.set, hall hf]⟩
        · intro e k hk
          by_cases het : e = fs₀.entry j.target
          · subst het; rw [upd_self, ← hown, hk]
          · rw [upd_other _ _ het]; exact hk
        · intro e k l c' hk _ _ a ha
          by_cases het : e = fs₀.entry j.target
          · subst het
            rw [hnode] at ha
            cases ha
            exact ⟨out, by simp [FS.set], List.nil_prefix⟩
          · exact ⟨a, by simp [FS.set, het, ha], List.prefix_refl _⟩
      refine Machine.turn_operation (Q := fun m' => ∃ phase' owner', Placed fs₀ jobs faults m' phase' owner' ∧
        Onward fs₀ jobs owner owner' m m') (hrest : _ = Steps.step (writeFile (fs₀.entry j.target) (WM.emit c (.ok ()))) _) ?_ ?_ ?_
      · intro fl hn
        simp only [WM.run_emit]
        exact writes c c.length _ (.ok ()) (List.take_length.symm) rfl (fun _ => rfl)
      · intro hne n fl
        have hlim : ∃ k, (WM.emit c (.ok ()) ⟨[], some n⟩).2.out = c.take k := by
          rw [WM.emit_apply]
          simp only
          split
          · exact ⟨c.length, by simp⟩
          · exact ⟨n, by simp⟩
        obtain ⟨k, hk⟩ := hlim
        simp only [hk]
        exact writes _ k _ (.ok ()) rfl rfl (fun e => absurd e (hff hne))
      · intro hne n fl
        simp only [WM.run_emit]
        exact writes _ n _ _ rfl rfl (fun e => absurd e (hff hne))
    | over =>
      rw [hp] at hat
      obtain ⟨e, he, -⟩ := hat
      rw [m.turn_ended he]
      exact ⟨phase, owner, h, .refl _ _ _ _ rfl⟩

end PwDiff
