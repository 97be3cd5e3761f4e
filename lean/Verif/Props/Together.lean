import Verif.Proofs.Together

/-! # C103, C104: several runs of `pw_patch` at the same time -/

namespace PwDiff

open Sys Steps

variable {fs : FS} {jobs : List Job}

theorem Together.start (fs : FS) (jobs : List Job) (faults : Nat → List Fault) :
    Together fs jobs (Machine.start fs jobs faults) (fun _ => []) (fun _ => .begin) := by
  refine ⟨rfl, fun _ _ _ => rfl, fun e _ c hc => ⟨c, hc, .start hc⟩, ?_, ?_, ?_, ?_⟩
  · intro i j hj
    show ((Machine.start fs jobs faults).proc i).rest = _
    simp only [Machine.start, hj]
  · intro i hi
    simp only [Machine.start, hi]
  · intro e i hi
    cases hi
  · intro i k hk
    cases hk

theorem together_turn (hr : Ready fs jobs) {m : Machine} {cur : Nat → List Nat} {stage : Nat → Stage}
    (h : Together fs jobs m cur stage) (i : Nat) :
    (jobs[i]? = none ∧ m.turn i = m) ∨ ∃ j, jobs[i]? = some j ∧ Moved fs jobs cur stage i j (m.turn i) := by
  cases hj : jobs[i]? with
  | none => exact .inl ⟨rfl, m.turn_ended (h.idle i hj)⟩
  | some j => exact .inr ⟨j, rfl, h.turn hr hj⟩

/-- At every time. -/
theorem together_turns (hr : Ready fs jobs) (faults : Nat → List Fault) (order : List Nat) :
    ∃ cur stage, Together fs jobs ((Machine.start fs jobs faults).turns order) cur stage := by
  suffices ∀ (order : List Nat) (m : Machine), (∃ cur stage, Together fs jobs m cur stage) →
      ∃ cur stage, Together fs jobs (m.turns order) cur stage from this order _ ⟨_, _, .start fs jobs faults⟩
  intro order
  induction order with
  | nil => exact fun m h => h
  | cons i order ih =>
    rintro m ⟨cur, stage, h⟩
    refine ih _ ?_
    rcases together_turn hr h i with ⟨-, e⟩ | ⟨j, -, x, cur', -, h'⟩
    · exact ⟨cur, stage, by rw [e]; exact h⟩
    · exact ⟨cur', _, h'⟩

theorem Reached.ended (hr : Ready fs jobs) {i : Nat} {j : Job} {fs' : FS} {x : Stage} {r : Except Ended Unit}
    (hj : jobs[i]? = some j) (h : Reached fs jobs i j fs' x (.ended r)) :
    x = .done ∧ r = .ok () ∨ x = .stopped ∧ r = .error .killed ∨ x = .gone ∧ r ≠ .ok () := by
  cases x
  case done => cases h; exact .inl ⟨rfl, rfl⟩
  case put => cases h
  case stopped => cases h; exact .inr (.inl ⟨rfl, rfl⟩)
  case begin => cases h
  case opened =>
    exfalso
    have h : _ = applyDiffSteps _ _ _ j.diff := h
    have hch := hr.changes j (List.mem_of_getElem? hj)
    cases hd : j.diff <;> rw [hd] at hch h <;> first | cases h | cases hch
  case read => obtain ⟨_, _, _, h⟩ := h; cases h
  case made => obtain ⟨_, _, _, h, _⟩ := h; cases h
  case emptied => obtain ⟨_, _, _, h, _⟩ := h; cases h
  case written => obtain ⟨_, _, _, _, _, _, _, h, _⟩ := h; cases h
  case broken => cases h
  case gone => obtain ⟨_, _, h⟩ := h; cases h; exact .inr (.inr ⟨rfl, nofun⟩)

/-! ## C103 -/

/-- Any number of runs of `pw_patch` that change files, failing or killed anywhere, take turns in any order.  At every time
the names are as before, all entries other than the temporary files and the files to be changed are as they were, and each file
to be changed holds exactly what some of the patches, each applied completely and at most once, one after the other, make of
what it held first.  None of these comes from a run that has ended with an error. -/
theorem C103_atomic (hr : Ready fs jobs) (faults : Nat → List Fault) (order : List Nat) :
    let m := (Machine.start fs jobs faults).turns order
    m.fs.entry = fs.entry ∧
    (∀ e, (∀ j ∈ jobs, e ≠ fs.entry j.temp ∧ e ≠ fs.entry j.target) → m.fs.node e = fs.node e) ∧
    ∀ j ∈ jobs, ∃ s new, m.fs.node (fs.entry j.target) = some (.file new) ∧ PatchedBy fs jobs (fs.entry j.target) s new ∧
      ∀ i ∈ s, ∀ n, (m.proc i).rest ≠ .ended (.error (.exited n)) := by
  obtain ⟨cur, stage, h⟩ := together_turns hr faults order
  refine ⟨h.entry, ?_, ?_⟩
  · intro e he
    by_cases hf : ∃ c, fs.node e = some (.file c)
    · obtain ⟨c, hc⟩ := hf
      obtain ⟨new, e1, e2⟩ := h.file e (fun j hj => (he j hj).1) c hc
      rw [e1, hc]
      generalize cur e = s at e2
      cases e2 with
      | start h' => rw [hc] at h'; exact h'.symm
      | next _ _ hj ht _ => exact absurd ht.symm (he _ (List.mem_of_getElem? hj)).2
    · exact h.same e (fun j hj => (he j hj).1) fun c hc => hf ⟨c, hc⟩
  · intro j hj
    obtain ⟨c, hc⟩ := hr.files j hj
    obtain ⟨new, e1, e2⟩ := h.file (fs.entry j.target) (fun k hk e => (hr.apart k hk j hj).1 e.symm) c hc
    refine ⟨_, new, e1, e2, ?_⟩
    intro i hi n hn
    have hlate := h.had _ i hi
    cases hji : jobs[i]? with
    | none =>
      rw [h.idle i hji] at hn
      cases hn
    | some k =>
      have hre := h.reached i k hji
      rw [hn] at hre
      rcases hlate with e | e | e <;> rw [e] at hre <;> cases hre

/-- A run that has ended with exit status 0 has put its patched content in place at some time. -/
theorem C103_exit (hr : Ready fs jobs) (faults : Nat → List Fault) (order : List Nat) (i : Nat) (j : Job)
    (hj : jobs[i]? = some j)
    (he : (((Machine.start fs jobs faults).turns order).proc i).rest = .ended (.ok ())) :
    ∃ before later s new, order = before ++ later ∧ PatchedBy fs jobs (fs.entry j.target) (s ++ [i]) new ∧
      ((Machine.start fs jobs faults).turns before).fs.node (fs.entry j.target) = some (.file new) := by
  suffices ∀ order : List Nat, ∃ cur stage, Together fs jobs ((Machine.start fs jobs faults).turns order) cur stage ∧
      ((stage i).Late → ∃ before later s new, order = before ++ later ∧
        PatchedBy fs jobs (fs.entry j.target) (s ++ [i]) new ∧
        ((Machine.start fs jobs faults).turns before).fs.node (fs.entry j.target) = some (.file new)) by
    obtain ⟨cur, stage, h, hl⟩ := this order
    refine hl ?_
    rcases (he ▸ h.reached i j hj).ended hr hj with ⟨e, -⟩ | ⟨e, -⟩ | ⟨-, e⟩
    · exact .inr (.inl e)
    · exact .inr (.inr e)
    · exact absurd rfl e
  intro order
  suffices ∀ rev : List Nat, ∃ cur stage, Together fs jobs ((Machine.start fs jobs faults).turns rev.reverse) cur stage ∧
      ((stage i).Late → ∃ before later s new, rev.reverse = before ++ later ∧
        PatchedBy fs jobs (fs.entry j.target) (s ++ [i]) new ∧
        ((Machine.start fs jobs faults).turns before).fs.node (fs.entry j.target) = some (.file new)) by
    simpa using this order.reverse
  intro rev
  induction rev with
  | nil =>
    refine ⟨_, _, .start fs jobs faults, ?_⟩
    rintro (h | h | h) <;> cases h
  | cons k rev ih =>
    obtain ⟨cur, stage, h, hl⟩ := ih
    have keep : (∃ before later s new, rev.reverse = before ++ later ∧
        PatchedBy fs jobs (fs.entry j.target) (s ++ [i]) new ∧
        ((Machine.start fs jobs faults).turns before).fs.node (fs.entry j.target) = some (.file new)) →
        ∃ before later s new, (k :: rev).reverse = before ++ later ∧
        PatchedBy fs jobs (fs.entry j.target) (s ++ [i]) new ∧
        ((Machine.start fs jobs faults).turns before).fs.node (fs.entry j.target) = some (.file new) := by
      rintro ⟨b, l, s, new, e, h1, h2⟩
      exact ⟨b, l ++ [k], s, new, by simp [e], h1, h2⟩
    rw [List.reverse_cons] at keep ⊢
    rw [Machine.turns_snoc]
    rcases together_turn hr h k with ⟨-, e⟩ | ⟨l, hkl, x, cur', hmv, h'⟩
    · exact ⟨cur, stage, e.symm ▸ h, fun hh => keep (hl hh)⟩
    · refine ⟨cur', _, h', ?_⟩
      by_cases hki : i = k
      · subst hki
        obtain rfl := Option.some.inj (hj.symm.trans hkl)
        rw [upd_self]
        intro hx
        generalize hsi : stage i = st at hmv hl
        cases hmv with
        | put s =>
          obtain ⟨c, hc⟩ := hr.files j (List.mem_of_getElem? hj)
          obtain ⟨new, e1, e2⟩ := h'.file (fs.entry j.target)
            (fun k hk e => (hr.apart k hk j (List.mem_of_getElem? hj)).1 e.symm) c hc
          rw [upd_self] at e2
          refine ⟨_, [], s, new, (List.append_nil _).symm, e2, ?_⟩
          rw [Machine.turns_snoc]
          exact e1
        | done => exact keep (hl (.inl rfl))
        | stopped => exact keep (hl (.inl rfl))
        | over _ _ => exact keep (hl hx)
        | gone _ _ => rcases hx with h | h | h <;> cases h
        | _ => rcases hx with h | h | h <;> cases h
      · rw [upd_other _ _ hki]
        exact fun hh => keep (hl hh)

/-- Creating a file is different: it is there, and empty, before it is written. -/
theorem C103_add {m : Machine} {i : Nat} {α : Type} {path : Path} {wm : WM α} {so : List UInt8}
    (h : m.proc i = ⟨addFileSteps path wm, [], so⟩) (hf : m.fs.node (m.fs.entry path) = none) :
    m.turn i = ⟨m.fs.set (m.fs.entry path) (some (.file [])),
      upd m.proc i ⟨.step (writeFile (m.fs.entry path) wm) (fun _ => .ended (.ok ())), [], so⟩⟩ := by
  have e1 : (m.proc i).rest = addFileSteps path wm := by rw [h]
  have e2 : createNew path ⟨m.fs, (m.proc i).faults, (m.proc i).stdout⟩ = _ := createNew_eq (by rw [h]) hf
  rw [m.turn_ok e1 e2, h]
  rfl

/-! ## C104 -/

/-- One would expect: when all runs have ended with exit status 0, every file holds the changes of all patches for it. -/
def C104_statement : Prop :=
  ∀ (fs : FS) (jobs : List Job) (faults : Nat → List Fault) (order : List Nat), Ready fs jobs →
    let m := (Machine.start fs jobs faults).turns order
    (∀ i, (m.proc i).rest = .ended (.ok ())) →
    ∀ j ∈ jobs, ∃ s new, m.fs.node (fs.entry j.target) = some (.file new) ∧ PatchedBy fs jobs (fs.entry j.target) s new ∧
      ∀ i k, jobs[i]? = some k → fs.entry k.target = fs.entry j.target → i ∈ s

/-- Reading the patch file. -/
theorem turn_patch {m : Machine} {i : Nat} {j : Job} {c so : List UInt8}
    (h : m.proc i = ⟨pwPatchSteps j.profile j.temp j.patch j.reverse, [], so⟩)
    (hc : m.fs.contentAt j.patch = some ⟨c, false⟩) (hd : Diff.fromReader ⟨c, false⟩ = .ok j.diff) :
    m.turn i = ⟨m.fs, upd m.proc i ⟨applyDiffSteps j.profile j.temp j.reverse j.diff, [], so⟩⟩ := by
  have e1 : (m.proc i).rest = pwPatchSteps j.profile j.temp j.patch j.reverse := by rw [h]
  have e2 : ∀ w : World, w.faults = [] → w.fs = m.fs → openFile j.patch w = (.ok (some ⟨c, false⟩), w) := by
    intro w hw hfs
    rw [openFile_eq hw, hfs, hc]
  rw [m.turn_ok e1 (e2 _ (by rw [h]) rfl)]
  show Machine.mk m.fs _ = _
  congr 1
  funext k
  unfold upd
  split
  · show Process.mk (Steps.bind (Steps.ofOutcome (Diff.fromReader ⟨c, false⟩)) _) _ _ = _
    rw [hd, h]
    rfl
  · rfl

/-- Reading the file to be patched. -/
theorem turn_target {m : Machine} {i : Nat} {j : Job} {old new so : List UInt8}
    (h : m.proc i = ⟨applyDiffSteps j.profile j.temp j.reverse j.diff, [], so⟩) (hch : j.diff.changed = some j.target)
    (hc : m.fs.contentAt j.target = some ⟨old, false⟩) (hp : PatchedContent j.profile j.reverse j.diff old new) :
    ∃ (β : Type) (b : β) (wm : WM β), wm.run = (.ok b, new) ∧
      m.turn i = ⟨m.fs, upd m.proc i ⟨patchContentSteps j.temp j.target wm, [], so⟩⟩ := by
  have key : ∀ (α β : Type) (read : Reader → Outcome α) (apply : α → WM β) (a : α) (b : β),
      applyDiffSteps j.profile j.temp j.reverse j.diff = patchFileSteps j.temp j.target read apply →
      read ⟨old, false⟩ = .ok a → (apply a).run = (.ok b, new) → ∃ (β : Type) (b : β) (wm : WM β), wm.run = (.ok b, new) ∧
        m.turn i = ⟨m.fs, upd m.proc i ⟨patchContentSteps j.temp j.target wm, [], so⟩⟩ := by
    intro α β read apply a b heq ha hrun
    refine ⟨β, b, apply a, hrun, ?_⟩
    have e1 : (m.proc i).rest = patchFileSteps j.temp j.target read apply := by rw [h]; exact heq
    have e2 : ∀ w : World, w.faults = [] → w.fs = m.fs → openFile j.target w = (.ok (some ⟨old, false⟩), w) := by
      intro w hw hfs
      rw [openFile_eq hw, hfs, hc]
    rw [m.turn_ok e1 (e2 _ (by rw [h]) rfl)]
    show Machine.mk m.fs _ = _
    congr 1
    funext k
    unfold upd
    split
    · show Process.mk (Steps.bind (Steps.ofOutcome (read ⟨old, false⟩)) _) _ _ = _
      rw [ha, h]
      rfl
    · rfl
  cases hd : j.diff with
  | textChange d =>
    rw [hd] at hch hp
    have hbp : d.beforePath = j.target := Option.some.inj hch
    obtain ⟨s, st, rfl, hrun⟩ := hp
    exact key _ _ readText (fun ls => applyInto j.profile d.clumps ls j.reverse) _ st (by rw [hd, ← hbp]; rfl) (readText_bytes s) hrun
  | byteChange d =>
    rw [hd] at hch hp
    have hbp : d.beforePath = j.target := Option.some.inj hch
    exact key _ _ readBytes (fun bs => byteApplyInto j.profile d.clumps bs j.reverse) _ () (by rw [hd, ← hbp]; rfl)
      (readBytes_file old) hp
  | textAdd d => rw [hd] at hch; cases hch
  | textRemove d => rw [hd] at hch; cases hch
  | byteAdd d => rw [hd] at hch; cases hch
  | byteRemove d => rw [hd] at hch; cases hch

/-- The rest of the run, when nothing comes in between. -/
theorem turns_rest {m : Machine} {i : Nat} {temp target : Path} {β : Type} {b : β} {wm : WM β} {new so c : List UInt8}
    (h : m.proc i = ⟨patchContentSteps temp target wm, [], so⟩) (hrun : wm.run = (.ok b, new))
    (ht : m.fs.node (m.fs.entry temp) = none) (hc : m.fs.node (m.fs.entry target) = some (.file c)) :
    ∃ n, m.turns (List.replicate n i) = ⟨m.fs.set (m.fs.entry target) (some (.file new)), upd m.proc i ⟨.ended (.ok ()), [], so⟩⟩ := by
  obtain ⟨n, hn⟩ := m.turns_alone i
  refine ⟨n, ?_⟩
  rw [hn n (Nat.le_refl _), h]
  simp only [patchContent_alone]
  rw [patchContent_eq (w := ⟨m.fs, [], so⟩) rfl hrun ht (by simp only [hc]; exact nofun) (by simp only [hc]; exact nofun)]
  rfl

/-- Whatever the two patches for a file are: if both runs have read it before one of them replaces it, both end with exit
status 0, and what the first one has changed is lost. -/
theorem C104_lost (fs : FS) (one two : Job) (hr : Ready fs [one, two]) (ht : fs.entry one.target = fs.entry two.target)
    (h1 : fs.node (fs.entry one.temp) = none) (h2 : fs.node (fs.entry two.temp) = none) (old new₁ new₂ : List UInt8)
    (hold : fs.node (fs.entry one.target) = some (.file old))
    (hp1 : PatchedContent one.profile one.reverse one.diff old new₁)
    (hp2 : PatchedContent two.profile two.reverse two.diff old new₂) :
    ∃ order, let m := (Machine.start fs [one, two] fun _ => []).turns order
      (∀ i, (m.proc i).rest = .ended (.ok ())) ∧ m.fs.node (fs.entry one.target) = some (.file new₂) := by
  obtain ⟨c1, hc1, hd1⟩ := hr.held one (by simp)
  obtain ⟨c2, hc2, hd2⟩ := hr.held two (by simp)
  let m₀ := Machine.start fs [one, two] fun _ => []
  let m₁ : Machine := ⟨fs, upd m₀.proc 0 ⟨applyDiffSteps one.profile one.temp one.reverse one.diff, [], []⟩⟩
  have t₁ : m₀.turn 0 = m₁ := turn_patch rfl (FS.contentAt_file hc1) hd1
  let m₂ : Machine := ⟨fs, upd m₁.proc 1 ⟨applyDiffSteps two.profile two.temp two.reverse two.diff, [], []⟩⟩
  have t₂ : m₁.turn 1 = m₂ := turn_patch rfl (FS.contentAt_file hc2) hd2
  obtain ⟨β, b, wm, hw, t₃⟩ := turn_target (m := m₂) (j := one) (i := 0) (old := old) rfl (hr.changes one (by simp))
    (FS.contentAt_file hold) hp1
  let m₃ : Machine := ⟨fs, upd m₂.proc 0 ⟨patchContentSteps one.temp one.target wm, [], []⟩⟩
  obtain ⟨β', b', wm', hw', t₄⟩ := turn_target (m := m₃) (j := two) (i := 1) (old := old) rfl (hr.changes two (by simp))
    (FS.contentAt_file (by rw [← ht]; exact hold)) hp2
  let m₄ : Machine := ⟨fs, upd m₃.proc 1 ⟨patchContentSteps two.temp two.target wm', [], []⟩⟩
  obtain ⟨n, t₅⟩ := turns_rest (i := 0) (m := m₄) rfl hw h1 hold
  let m₅ : Machine := ⟨fs.set (fs.entry one.target) (some (.file new₁)), upd m₄.proc 0 ⟨.ended (.ok ()), [], []⟩⟩
  obtain ⟨n', t₆⟩ := turns_rest (i := 1) (m := m₅) rfl hw'
    (by show (if _ then _ else _) = _
        rw [if_neg (by exact (hr.apart two (by simp) one (by simp)).1)]
        exact h2)
    (c := new₁) (by show (if _ then _ else _) = _; rw [if_pos (by exact ht.symm)])
  refine ⟨[0, 1, 0, 1] ++ List.replicate n 0 ++ List.replicate n' 1, ?_⟩
  have e : m₀.turns ([0, 1, 0, 1] ++ List.replicate n 0 ++ List.replicate n' 1) =
      ⟨m₅.fs.set (m₅.fs.entry two.target) (some (.file new₂)), upd m₅.proc 1 ⟨.ended (.ok ()), [], []⟩⟩ := by
    rw [← t₆, Machine.turns_append, Machine.turns_append, Machine.turns_cons, t₁, Machine.turns_cons, t₂, Machine.turns_cons,
      t₃, Machine.turns_cons]
    exact congrArg (fun m => Machine.turns m _) (Eq.trans (congrArg (fun m => Machine.turns m _) t₄) t₅)
  show (∀ i, ((m₀.turns _).proc i).rest = _) ∧ (m₀.turns _).fs.node _ = _
  rw [e]
  refine ⟨?_, ?_⟩
  · intro i
    match i with
    | 0 => rfl
    | 1 => rfl
    | i + 2 => rfl
  · show (if _ then _ else _) = _
    rw [if_pos (by exact ht)]

/-- While a run for the file at entry `e` has its turns, every other one for it has not begun or has ended. -/
def OneAtATime (fs : FS) (jobs : List Job) (faults : Nat → List Fault) (e : Nat) (order : List Nat) : Prop :=
  ∀ s i t, order = s ++ i :: t → ∀ j k l, jobs[i]? = some j → jobs[k]? = some l → fs.entry j.target = e →
    fs.entry l.target = e → k ≠ i → k ∉ s ∨ ∃ r, (((Machine.start fs jobs faults).turns s).proc k).rest = .ended r

/-- What holds: if the runs for a file do not overlap, it holds the changes of all that have ended with exit status 0. -/
theorem C104_partial (hr : Ready fs jobs) (faults : Nat → List Fault) (order : List Nat) (j : Job) (hj : j ∈ jobs)
    (ho : OneAtATime fs jobs faults (fs.entry j.target) order) :
    let m := (Machine.start fs jobs faults).turns order
    ∃ s new, m.fs.node (fs.entry j.target) = some (.file new) ∧ PatchedBy fs jobs (fs.entry j.target) s new ∧
      ∀ i k, jobs[i]? = some k → fs.entry k.target = fs.entry j.target → (m.proc i).rest = .ended (.ok ()) → i ∈ s := by
  have main : ∀ rev : List Nat, OneAtATime fs jobs faults (fs.entry j.target) rev.reverse → ∃ cur stage,
      Together fs jobs ((Machine.start fs jobs faults).turns rev.reverse) cur stage ∧
      (∀ i, i ∉ rev → stage i = .begin) ∧
      ∀ i k, jobs[i]? = some k → fs.entry k.target = fs.entry j.target →
        ((stage i).Late → i ∈ cur (fs.entry j.target)) ∧
        ∀ t, stage i = .read t ∨ stage i = .made t ∨ stage i = .emptied t ∨ stage i = .written t → t = cur (fs.entry j.target) := by
    intro rev
    induction rev with
    | nil =>
      intro _
      refine ⟨_, _, .start fs jobs faults, fun _ _ => rfl, fun i k _ _ => ⟨?_, ?_⟩⟩
      · rintro (h | h | h) <;> cases h
      · rintro t (h | h | h | h) <;> cases h
    | cons n rev ih =>
      intro ho
      rw [List.reverse_cons] at ho ⊢
      obtain ⟨cur, stage, h, hb, hc⟩ := ih fun s i t e => ho s i (t ++ [n]) (by rw [e]; simp)
      rw [Machine.turns_snoc]
      rcases together_turn hr h n with ⟨-, e⟩ | ⟨l, hnl, x, cur', hmv, h'⟩
      · rw [e]
        exact ⟨cur, stage, h, fun i hi => hb i (fun hh => hi (List.mem_cons_of_mem _ hh)), hc⟩
      · refine ⟨cur', _, h', ?_, ?_⟩
        · intro i hi
          have hin : i ≠ n := fun e => hi (e ▸ List.mem_cons_self)
          rw [upd_other _ _ hin]
          exact hb i (fun hh => hi (List.mem_cons_of_mem _ hh))
        · by_cases hln : fs.entry l.target = fs.entry j.target
          · have others : ∀ i k, jobs[i]? = some k → fs.entry k.target = fs.entry j.target → i ≠ n →
                stage i = .begin ∨ stage i = .done ∨ stage i = .stopped ∨ stage i = .gone := by
              intro i k hik hkt hin
              rcases ho _ n [] rfl l i k hnl hik hln hkt hin with h1 | ⟨r, h1⟩
              · exact .inl (hb i (by simpa using h1))
              · rcases (h1 ▸ h.reached i k hik).ended hr hik with ⟨e, -⟩ | ⟨e, -⟩ | ⟨e, -⟩
                · exact .inr (.inl e)
                · exact .inr (.inr (.inl e))
                · exact .inr (.inr (.inr e))
            have own := hc n l hnl hln
            have hcur : ∀ i ∈ cur (fs.entry j.target), i ∈ cur' (fs.entry j.target) := by
              intro i hi
              generalize stage n = st at hmv own
              cases hmv with
              | put t =>
                rw [hln, upd_self]
                rw [own.2 t (.inr (.inr (.inr rfl)))]
                exact List.mem_append_left _ hi
              | _ => exact hi
            intro i k hik hkt
            by_cases hin : i = n
            · subst hin
              rw [upd_self]
              generalize hst : stage i = st at hmv own
              cases hmv with
              | opened => exact ⟨(by rintro (h | h | h) <;> cases h), by rintro t (h | h | h | h) <;> cases h⟩
              | read =>
                rw [hln]
                refine ⟨(by rintro (h | h | h) <;> cases h), ?_⟩
                rintro t (h | h | h | h) <;> cases h
                rfl
              | made s =>
                refine ⟨(by rintro (h | h | h) <;> cases h), ?_⟩
                rintro t (h | h | h | h) <;> cases h
                exact own.2 s (.inl rfl)
              | emptied s =>
                refine ⟨(by rintro (h | h | h) <;> cases h), ?_⟩
                rintro t (h | h | h | h) <;> cases h
                exact own.2 s (.inr (.inl rfl))
              | written s =>
                refine ⟨(by rintro (h | h | h) <;> cases h), ?_⟩
                rintro t (h | h | h | h) <;> cases h
                exact own.2 s (.inr (.inr (.inl rfl)))
              | broken s => exact ⟨(by rintro (h | h | h) <;> cases h), by rintro t (h | h | h | h) <;> cases h⟩
              | put s =>
                refine ⟨fun _ => ?_, by rintro t (h | h | h | h) <;> cases h⟩
                rw [hln, upd_self]
                exact List.mem_append_right _ (List.mem_singleton.2 rfl)
              | done => exact ⟨fun _ => own.1 (.inl rfl), by rintro t (h | h | h | h) <;> cases h⟩
              | stopped => exact ⟨fun _ => own.1 (.inl rfl), by rintro t (h | h | h | h) <;> cases h⟩
              | gone _ _ => exact ⟨(by rintro (h | h | h) <;> cases h), by rintro t (h | h | h | h) <;> cases h⟩
              | over _ _ => exact own
            · rw [upd_other _ _ hin]
              refine ⟨fun hl => hcur i ((hc i k hik hkt).1 hl), ?_⟩
              intro t ht
              rcases others i k hik hkt hin with e | e | e | e <;> rw [e] at ht <;>
                rcases ht with h | h | h | h <;> cases h
          · have hcur : cur' (fs.entry j.target) = cur (fs.entry j.target) := by
              generalize stage n = st at hmv
              cases hmv with
              | put t => exact upd_other _ _ (Ne.symm hln)
              | _ => rfl
            intro i k hik hkt
            have hin : i ≠ n := by
              rintro rfl
              obtain rfl := Option.some.inj (hik.symm.trans hnl)
              exact hln hkt
            rw [upd_other _ _ hin, hcur]
            exact hc i k hik hkt
  obtain ⟨cur, stage, h, -, hc⟩ := main order.reverse (by rwa [List.reverse_reverse])
  rw [List.reverse_reverse] at h
  obtain ⟨c, hcf⟩ := hr.files j hj
  obtain ⟨new, e1, e2⟩ := h.file (fs.entry j.target) (fun k hk e => (hr.apart k hk j hj).1 e.symm) c hcf
  refine ⟨_, new, e1, e2, ?_⟩
  intro i k hik hkt hend
  refine (hc i k hik hkt).1 ?_
  rcases (hend ▸ h.reached i k hik).ended hr hik with ⟨e, -⟩ | ⟨e, -⟩ | ⟨-, e⟩
  · exact .inr (.inl e)
  · exact .inr (.inr e)
  · exact absurd rfl e

/-! ## The programs of `Model/Programs`, and a concrete case -/

/-- A run that has all its turns in a row does what `pw_patch` does alone. -/
theorem C103_alone (fs : FS) (j : Job) (faults : Nat → List Fault) : ∃ n, ∀ k, n ≤ k →
    let m := (Machine.start fs [j] faults).turns (List.replicate k 0)
    let x := pwPatch j.profile j.temp j.patch j.reverse ⟨fs, faults 0, []⟩
    m.fs = x.2.fs ∧ m.proc 0 = ⟨.ended x.1, x.2.faults, x.2.stdout⟩ := by
  obtain ⟨n, hn⟩ := (Machine.start fs [j] faults).turns_alone 0
  refine ⟨n, fun k hk => ?_⟩
  simp only [hn k hk]
  have e : ((Machine.start fs [j] faults).proc 0).rest.alone = pwPatch j.profile j.temp j.patch j.reverse :=
    pwPatch_alone ..
  rw [e]
  exact ⟨rfl, rfl⟩

/-- A second patch for the same file. -/
def otherDiff : Diff := .byteChange ⟨[65], [66], false, [⟨(0, 0), ⟨3, [4]⟩, ⟨3, [9]⟩⟩]⟩

/-- A file system with three files. -/
theorem FS.ofFiles_three (a c d : List UInt8) : let fs := FS.ofFiles [([65], a), ([67], c), ([68], d)]
    fs.entry [65] = 0 ∧ fs.entry [67] = 1 ∧ fs.entry [68] = 2 ∧ fs.entry [85] = 3 ∧ fs.entry [84] = 4 ∧
      fs.node 0 = some (.file a) ∧ fs.node 1 = some (.file c) ∧ fs.node 2 = some (.file d) ∧ fs.node 3 = none ∧
      fs.node 4 = none :=
  ⟨rfl, rfl, rfl, rfl, rfl, rfl, rfl, rfl, rfl, rfl⟩

def togetherFS : FS := FS.ofFiles [([65], [1, 2, 3, 4, 5]), ([67], exampleDiff.fileContent), ([68], otherDiff.fileContent)]

/-- Two runs for the same file. -/
def jobOne : Job := ⟨.release, [84], [67], false, exampleDiff, [65]⟩
def jobTwo : Job := ⟨.release, [85], [68], false, otherDiff, [65]⟩

theorem togetherFS_ready : Ready togetherFS [jobOne, jobTwo] := by
  obtain ⟨e1, e2, e3, e4, e5, n1, n2, n3, -, -⟩ :=
    FS.ofFiles_three [1, 2, 3, 4, 5] exampleDiff.fileContent otherDiff.fileContent
  have two : ∀ {P : Job → Prop}, P jobOne → P jobTwo → ∀ j ∈ [jobOne, jobTwo], P j := by
    intro P h1 h2 j hj
    rcases List.mem_cons.1 hj with rfl | hj
    · exact h1
    · rw [List.mem_singleton.1 hj]
      exact h2
  have utf : ∀ path ∈ exampleDiff.paths, IsUtf8 path := by
    intro path h
    simp only [exampleDiff, Diff.paths, List.mem_cons, List.not_mem_nil, or_false] at h
    rcases h with rfl | rfl
    · exact ⟨['A'], by decide⟩
    · exact ⟨['B'], by decide⟩
  have hrd1 : Diff.fromReader ⟨exampleDiff.fileContent, false⟩ = .ok exampleDiff := by
    refine (toWriter_fromReader exampleDiff ?_ utf).2
    intro c hc
    simp only [List.mem_singleton] at hc
    subst hc
    simp [DiffClump.InRange, wordSize]
  have hrd2 : Diff.fromReader ⟨otherDiff.fileContent, false⟩ = .ok otherDiff := by
    refine (toWriter_fromReader otherDiff ?_ utf).2
    intro c hc
    simp only [List.mem_singleton] at hc
    subst hc
    simp [DiffClump.InRange, wordSize]
  have p1 : togetherFS.entry jobOne.patch = 1 := e2
  have p2 : togetherFS.entry jobTwo.patch = 2 := e3
  have q1 : togetherFS.entry jobOne.temp = 4 := e5
  have q2 : togetherFS.entry jobTwo.temp = 3 := e4
  have r1 : togetherFS.entry jobOne.target = 0 := e1
  have r2 : togetherFS.entry jobTwo.target = 0 := e1
  refine ⟨two ⟨_, ?_, hrd1⟩ ⟨_, ?_, hrd2⟩, two rfl rfl, two ⟨[1, 2, 3, 4, 5], ?_⟩ ⟨[1, 2, 3, 4, 5], ?_⟩, two (two ?_ ?_) (two ?_ ?_), ?_⟩
  · rw [p1]; exact n2
  · rw [p2]; exact n3
  · rw [r1]; exact n1
  · rw [r2]; exact n1
  · rw [p1, q1, r1]; decide
  · rw [p1, p2, q1, r2]; decide
  · rw [p1, p2, q2, r1]; decide
  · rw [p2, q2, r2]; decide
  · simp only [List.pairwise_cons, List.mem_singleton, forall_eq, List.not_mem_nil, false_implies, implies_true, and_true,
      List.Pairwise.nil]
    rw [q1, q2]
    decide

/-- It fails: the first run's change is lost although both runs have ended with exit status 0. -/
theorem C104_refuted : ¬ C104_statement := by
  intro hall
  obtain ⟨e1, e2, e3, e4, e5, n1, n2, n3, n4, n5⟩ :=
    FS.ofFiles_three [1, 2, 3, 4, 5] exampleDiff.fileContent otherDiff.fileContent
  have r1 : togetherFS.entry jobOne.target = 0 := e1
  have r2 : togetherFS.entry jobTwo.target = 0 := e1
  have q1 : togetherFS.entry jobOne.temp = 4 := e5
  have q2 : togetherFS.entry jobTwo.temp = 3 := e4
  have one : ∀ old new, PatchedContent .release false exampleDiff old new →
      (byteApplyInto .release [⟨(0, 0), ⟨1, [2]⟩, ⟨1, [7, 8]⟩⟩] old false).run = (.ok (), new) := fun _ _ h => h
  have two : ∀ old new, PatchedContent .release false otherDiff old new →
      (byteApplyInto .release [⟨(0, 0), ⟨3, [4]⟩, ⟨3, [9]⟩⟩] old false).run = (.ok (), new) := fun _ _ h => h
  obtain ⟨order, h1, h2⟩ := C104_lost togetherFS jobOne jobTwo togetherFS_ready (r1.trans r2.symm) (by rw [q1]; exact n5)
    (by rw [q2]; exact n4) [1, 2, 3, 4, 5] [1, 7, 8, 3, 4, 5] [1, 2, 3, 9, 5] (by rw [r1]; exact n1)
    (by show (byteApplyInto _ _ _ _).run = _; decide +kernel) (by show (byteApplyInto _ _ _ _).run = _; decide +kernel)
  obtain ⟨s, new, h3, h4, h5⟩ := hall togetherFS [jobOne, jobTwo] (fun _ => []) order togetherFS_ready h1 jobOne (by simp)
  obtain rfl : [1, 2, 3, 9, 5] = new := by
    have := h2.symm.trans h3
    cases this
    rfl
  have m0 : 0 ∈ s := h5 0 jobOne rfl rfl
  have m1 : 1 ∈ s := h5 1 jobTwo rfl (r2.trans r1.symm)
  rw [r1] at h4
  have small : ∀ {i : Nat} {j : Job}, [jobOne, jobTwo][i]? = some j → i = 0 ∧ j = jobOne ∨ i = 1 ∧ j = jobTwo := by
    intro i j h
    match i, h with
    | 0, h => exact .inl ⟨rfl, (Option.some.inj h).symm⟩
    | 1, h => exact .inr ⟨rfl, (Option.some.inj h).symm⟩
    | i + 2, h => cases h
  have first : ∀ {c}, PatchedBy togetherFS [jobOne, jobTwo] 0 [] c → c = [1, 2, 3, 4, 5] := by
    intro c h
    generalize hs : ([] : List Nat) = s at h
    induction h with
    | start h =>
      have := h.symm.trans n1
      cases this
      rfl
    | next _ _ _ _ _ _ => simp at hs
  have single : ∀ {s c} (i : Nat), PatchedBy togetherFS [jobOne, jobTwo] 0 s c → i < 2 → i ∉ s → 1 - i ∈ s →
      ∃ j, [jobOne, jobTwo][1 - i]? = some j ∧ PatchedContent j.profile j.reverse j.diff [1, 2, 3, 4, 5] c := by
    intro s c i h hi his hs
    cases h with
    | start _ => cases hs
    | @next s' old _ k j h hk hj _ hp =>
      have hki : k = 1 - i := by
        have : k ≠ i := fun e => his (by simp [e])
        rcases small hj with ⟨e, -⟩ | ⟨e, -⟩ <;> omega
      subst hki
      refine ⟨j, hj, ?_⟩
      have hs' : s' = [] := by
        cases h with
        | start _ => rfl
        | @next s'' _ _ k' j' _ _ hj' _ _ =>
          exfalso
          have e1 : k' ≠ i := fun e => his (by simp [e])
          have e2 : k' ≠ 1 - i := fun e => hk (by simp [e])
          rcases small hj' with ⟨e, -⟩ | ⟨e, -⟩ <;> omega
      subst hs'
      rw [← first h]
      exact hp
  generalize hnew : [1, 2, 3, 9, 5] = new at h4
  cases h4 with
  | start _ => cases m0
  | @next s' old _ k j h hk hj _ hp =>
    subst hnew
    rcases small hj with ⟨rfl, rfl⟩ | ⟨rfl, rfl⟩
    · have : 1 ∈ s' := by simpa using m1
      obtain ⟨j, hj, hp'⟩ := single 0 h (by omega) hk this
      obtain rfl := Option.some.inj hj
      have hp' := two _ _ hp'
      have hold : old = [1, 2, 3, 9, 5] := by
        refine Eq.trans (congrArg Prod.snd hp').symm ?_
        decide +kernel
      rw [hold] at hp
      have h1 := congrArg Prod.snd (one _ _ hp)
      revert h1
      decide +kernel
    · have : 0 ∈ s' := by simpa using m0
      obtain ⟨j, hj, hp'⟩ := single 1 h (by omega) hk this
      obtain rfl := Option.some.inj hj
      have hp' := one _ _ hp'
      have hold : old = [1, 7, 8, 3, 4, 5] := by
        refine Eq.trans (congrArg Prod.snd hp').symm ?_
        decide +kernel
      rw [hold] at hp
      have h1 := congrArg Prod.snd (two _ _ hp)
      revert h1
      decide +kernel

/-- One run after the other: the condition of `C104_partial` is met. -/
example (n k : Nat) (h : ∃ r, (((Machine.start togetherFS [jobOne, jobTwo] fun _ => []).turns (List.replicate n 0)).proc 0).rest = .ended r) :
    OneAtATime togetherFS [jobOne, jobTwo] (fun _ => []) 0 (List.replicate n 0 ++ List.replicate k 1) := by
  obtain ⟨r, h⟩ := h
  intro s i t e j l o hj hl _ _ hli
  have hl2 : l = 0 ∨ l = 1 := by
    match l, hl with
    | 0, _ => exact .inl rfl
    | 1, _ => exact .inr rfl
    | l + 2, hl => cases hl
  by_cases hs : s.length < n
  · left
    have hs0 : ∀ x ∈ s ++ [i], x = 0 := by
      have hpre : s ++ [i] <+: List.replicate n 0 := by
        refine List.prefix_of_prefix_length_le (l₃ := List.replicate n 0 ++ List.replicate k 1) ?_ (List.prefix_append ..) ?_
        · rw [e]
          exact ⟨t, by simp⟩
        · simp only [List.length_append, List.length_cons, List.length_nil, List.length_replicate]
          omega
      intro x hx
      exact List.eq_of_mem_replicate (hpre.subset hx)
    have hi := hs0 i (by simp)
    intro hm
    have := hs0 l (by simp [hm])
    omega
  · have hi : i = 1 := by
      have h1 : (List.replicate n 0 ++ List.replicate k 1)[s.length]? = some i := by rw [e]; simp
      rw [List.getElem?_append_right (by simpa using Nat.le_of_not_lt hs)] at h1
      exact List.eq_of_mem_replicate (List.mem_of_getElem? h1)
    have hl0 : l = 0 := by omega
    subst hl0
    right
    refine ⟨r, ?_⟩
    have hs' : s = List.replicate n 0 ++ List.replicate (s.length - n) 1 := by
      have h1 : s = (List.replicate n 0 ++ List.replicate k 1).take s.length := by rw [e]; simp
      have hlen : s.length ≤ n + k := by
        have := congrArg List.length e
        simp at this
        omega
      rw [List.take_append, List.take_of_length_le (by simpa using Nat.le_of_not_lt hs)] at h1
      simpa [List.take_replicate, Nat.min_eq_left (by omega : s.length - n ≤ k)] using h1
    rw [hs', Machine.turns_append]
    have keep : ∀ (q : Nat) (m : Machine), ((m.turns (List.replicate q 1)).proc 0) = m.proc 0 := by
      intro q
      induction q with
      | zero => exact fun m => rfl
      | succ q ih =>
        intro m
        rw [List.replicate_succ, Machine.turns_cons, ih, Machine.turn_other _ (by decide)]
    rw [keep]
    exact h

end PwDiff
