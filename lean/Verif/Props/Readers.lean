import Verif.Proofs.Readers
import Verif.Props.Together

/-! # C107: `pw_diff` among other programs -/

namespace PwDiff

open Sys Steps

/-- What a diff was made from: contents `At path c` of the paths. -/
def MadeFrom (p : Profile) (At : Path → List UInt8 → Prop) (before after : Path) (context : Nat) : Diff → Prop
  | .textChange d => d.beforePath = before ∧ d.afterPath = after ∧ ∃ s t : Str, At before s.bytes ∧ At after t.bytes ∧
      diffClumps p (splitInclusive s) (splitInclusive t) context = .ok d.clumps
  | .byteChange d => d.beforePath = before ∧ d.afterPath = after ∧ d.compressed = false ∧ ∃ b a, At before b ∧ At after a ∧
      diffClumps p b a context = .ok d.clumps
  | .textRemove d => d.path = before ∧ ∃ s : Str, At before s.bytes ∧ d.lines = splitInclusive s
  | .byteRemove d => d.path = before ∧ d.compressed = false ∧ At before d.bytes
  | .textAdd d => d.path = before ∧ ∃ s : Str, At after s.bytes ∧ d.lines = splitInclusive s
  | .byteAdd d => d.path = before ∧ d.compressed = false ∧ At after d.bytes

/-- Only contents of the two paths matter. -/
theorem MadeFrom.mono' {p : Profile} {At At' : Path → List UInt8 → Prop} {before after : Path} {context : Nat} {d : Diff}
    (h : MadeFrom p At before after context d) (hb : ∀ c, At before c → At' before c) (ha : ∀ c, At after c → At' after c) :
    MadeFrom p At' before after context d := by
  cases d with
  | textChange d => obtain ⟨e1, e2, s, t, e3, e4, e5⟩ := h; exact ⟨e1, e2, s, t, hb _ e3, ha _ e4, e5⟩
  | byteChange d => obtain ⟨e1, e2, e0, s, t, e3, e4, e5⟩ := h; exact ⟨e1, e2, e0, s, t, hb _ e3, ha _ e4, e5⟩
  | textRemove d => obtain ⟨e1, s, e2, e3⟩ := h; exact ⟨e1, s, hb _ e2, e3⟩
  | byteRemove d => obtain ⟨e1, e2, e3⟩ := h; exact ⟨e1, e2, hb _ e3⟩
  | textAdd d => obtain ⟨e1, s, e2, e3⟩ := h; exact ⟨e1, s, ha _ e2, e3⟩
  | byteAdd d => obtain ⟨e1, e2, e3⟩ := h; exact ⟨e1, e2, ha _ e3⟩

theorem MadeFrom.mono {p : Profile} {At At' : Path → List UInt8 → Prop} {before after : Path} {context : Nat} {d : Diff}
    (h : MadeFrom p At before after context d) (hAt : ∀ path c, At path c → At' path c) : MadeFrom p At' before after context d :=
  h.mono' (hAt _) (hAt _)

/-- Contents the paths had at times, when every two of them are contents they had at one time. -/
theorem MadeFrom.atOnce {p : Profile} {ι : Type} {At : ι → Path → List UInt8 → Prop} {before after : Path} {context : Nat}
    {d : Diff} (h : MadeFrom p (fun path c => ∃ n, At n path c) before after context d)
    (hAt : ∀ b a n, At n before b → ∀ n', At n' after a → ∃ k, At k before b ∧ At k after a) :
    ∃ k, MadeFrom p (At k) before after context d := by
  cases d with
  | textChange d =>
    obtain ⟨e1, e2, s, t, ⟨n, e3⟩, ⟨n', e4⟩, e5⟩ := h
    obtain ⟨k, h1, h2⟩ := hAt _ _ n e3 n' e4
    exact ⟨k, e1, e2, s, t, h1, h2, e5⟩
  | byteChange d =>
    obtain ⟨e1, e2, e0, s, t, ⟨n, e3⟩, ⟨n', e4⟩, e5⟩ := h
    obtain ⟨k, h1, h2⟩ := hAt _ _ n e3 n' e4
    exact ⟨k, e1, e2, e0, s, t, h1, h2, e5⟩
  | textRemove d => obtain ⟨e1, s, ⟨n, e2⟩, e3⟩ := h; exact ⟨n, e1, s, e2, e3⟩
  | byteRemove d => obtain ⟨e1, e2, n, e3⟩ := h; exact ⟨n, e1, e2, e3⟩
  | textAdd d => obtain ⟨e1, s, ⟨n, e2⟩, e3⟩ := h; exact ⟨n, e1, s, e2, e3⟩
  | byteAdd d => obtain ⟨e1, e2, n, e3⟩ := h; exact ⟨n, e1, e2, e3⟩

section

variable {H : FS → Prop} {so : List UInt8}

/-- A content the path had. -/
abbrev Had (H : FS → Prop) (path : Path) (c : List UInt8) : Prop := ∃ fs, H fs ∧ fs.contentAt path = some ⟨c, false⟩

theorem among_some {α β : Type} {s : Steps (Option α)} {f : Option α → Steps β} {Q : Except Ended β → List UInt8 → Prop} {P : α → Prop}
    (h : Among H s so fun r so' => so' = so ∧ (∀ a, r = .ok (some a) → P a) ∧ r ≠ .error (.exited 0)) (h1 : Among H (f none) so Q)
    (h2 : ∀ a, P a → Among H (f (some a)) so Q) (h3 : ∀ e, e ≠ .exited 0 → Q (.error e) so) : Among H (s >>= f) so Q := by
  refine (h.mono fun r so' hr => ?_).bind
  obtain ⟨rfl, hp, hne⟩ := hr
  cases r with
  | error e => exact h3 e fun he => hne (by rw [he])
  | ok o =>
    cases o with
    | none => exact h1
    | some a => exact h2 a (hp a rfl)

theorem among_read {α β : Type} {path : Path} {read : Reader → Outcome α} (hread : ∀ r a, read r = .ok a → r.fails = false)
    {f : Option α → Steps β} {Q : Except Ended β → List UInt8 → Prop} {g : Option Reader → Steps β}
    (hg : ∀ r, g (some r) = (Steps.ofOutcome (read r) >>= f)) (h1 : Among H (g none) so Q) (h1' : Among H (f none) so Q)
    (h2 : ∀ c a, Had H path c → read ⟨c, false⟩ = .ok a → Among H (f (some a)) so Q) (h3 : ∀ e, e ≠ .exited 0 → Q (.error e) so) :
    Among H (op (openFile path) >>= g) so Q := by
  refine among_some (P := fun r => r.fails = true ∨ ∃ fs, H fs ∧ fs.contentAt path = some r)
    (among_op fun fs fl hfs => sat_openFile ?_ ?_ ?_ ?_) h1 ?_ h3
  · exact fun fl _ => ⟨rfl, nofun, nofun⟩
  · exact fun fl => ⟨rfl, nofun, by simp⟩
  · exact fun fl r hr => ⟨rfl, by rintro a h; cases h; exact .inl hr, nofun⟩
  · exact fun fl r hr => ⟨rfl, by rintro a h; cases h; exact .inr ⟨fs, hfs, hr⟩, nofun⟩
  · intro r hr
    rw [hg]
    refine among_some (P := fun a => read r = .ok a) (among_outcome ?_ ?_ ?_) h1' ?_ h3
    · exact fun a ha => ⟨rfl, by rintro b h; cases h; exact ha, nofun⟩
    · exact ⟨rfl, nofun, nofun⟩
    · exact fun e he => ⟨rfl, nofun, by simpa using he⟩
    · intro a ha
      have hf := hread r a ha
      rcases hr with hr | ⟨fs, h, hr⟩
      · rw [hf] at hr; cases hr
      · obtain ⟨data, fails⟩ := r
        cases hf
        exact h2 data a ⟨fs, h, hr⟩ ha

/-- The result of `Diff::new` among others. -/
theorem among_diffNew (p : Profile) (before after : Path) (context : Nat) :
    Among H (Diff.newSteps p before after context) so fun r so' => so' = so ∧
      (∀ d, r = .ok (some d) → MadeFrom p (Had H) before after context d) ∧ r ≠ .error (.exited 0) := by
  have hbytes : ∀ (r : Reader) (a : List UInt8), readBytes r = .ok a → r.fails = false := by
    rintro ⟨data, fails⟩ a h
    cases fails with
    | true => cases h
    | false => rfl
  have htext : ∀ (r : Reader) (a : List Str), readText r = .ok a → r.fails = false := fun r a h => ((readText_eq_ok_iff r a).1 h).1
  have hend : ∀ {α : Type} {P : α → Prop} (e : Ended), e ≠ .exited 0 → (fun (r : Except Ended (Option α)) so' => so' = so ∧ (∀ d, r = .ok (some d) → P d) ∧
      r ≠ .error (.exited 0)) (.error e) so := fun e he => ⟨rfl, nofun, by simpa using he⟩
  have none' : ∀ {α : Type} {P : α → Prop}, Among H (pure none : Steps (Option α)) so fun r so' => so' = so ∧ (∀ d, r = .ok (some d) → P d) ∧
      r ≠ .error (.exited 0) := ⟨rfl, nofun, nofun⟩
  have lines : ∀ path, Among H (PathAndLines.newSteps path) so fun r so' => so' = so ∧ (∀ d, r = .ok (some d) →
      d.path = path ∧ ∃ s : Str, Had H path s.bytes ∧ d.lines = splitInclusive s) ∧ r ≠ .error (.exited 0) := by
    intro path
    refine among_read htext (fun _ => rfl) none' none' ?_ hend
    intro c a hc ha
    obtain ⟨-, s, hs, rfl⟩ := (readText_eq_ok_iff _ a).1 ha
    obtain rfl : s.bytes = c := hs
    refine ⟨rfl, ?_, nofun⟩
    rintro d h
    cases h
    exact ⟨rfl, s, hc, rfl⟩
  have bytes : ∀ path, Among H (PathAndBytes.newSteps path) so fun r so' => so' = so ∧ (∀ d, r = .ok (some d) →
      d.path = path ∧ d.compressed = false ∧ Had H path d.bytes) ∧ r ≠ .error (.exited 0) := by
    intro path
    refine among_read hbytes (fun _ => rfl) none' none' ?_ hend
    intro c a hc ha
    cases ha
    refine ⟨rfl, ?_, nofun⟩
    rintro d h
    cases h
    exact ⟨rfl, rfl, hc⟩
  have text : Among H (TextChangeDiff.newSteps p before after context) so fun r so' => so' = so ∧ (∀ d, r = .ok (some d) →
      MadeFrom p (Had H) before after context (.textChange d)) ∧ r ≠ .error (.exited 0) := by
    refine among_read htext (fun _ => rfl) none' none' ?_ hend
    intro c a hc ha
    refine among_read htext (fun _ => rfl) none' none' ?_ hend
    intro c' a' hc' ha'
    obtain ⟨-, s, hs, rfl⟩ := (readText_eq_ok_iff _ a).1 ha
    obtain rfl : s.bytes = c := hs
    obtain ⟨-, t, ht, rfl⟩ := (readText_eq_ok_iff _ a').1 ha'
    obtain rfl : t.bytes = c' := ht
    refine among_some (P := fun cs => diffClumps p (splitInclusive s) (splitInclusive t) context = .ok cs)
      (among_outcome ?_ ?_ ?_) none' ?_ hend
    · exact fun a ha => ⟨rfl, by rintro b h; cases h; exact ha, nofun⟩
    · exact ⟨rfl, nofun, nofun⟩
    · exact fun e he => ⟨rfl, nofun, by simpa using he⟩
    · intro cs hcs
      refine ⟨rfl, ?_, nofun⟩
      rintro d h
      cases h
      exact ⟨rfl, rfl, s, t, hc, hc', hcs⟩
  have byte : Among H (ByteChangeDiff.newSteps p before after context) so fun r so' => so' = so ∧ (∀ d, r = .ok (some d) →
      MadeFrom p (Had H) before after context (.byteChange d)) ∧ r ≠ .error (.exited 0) := by
    refine among_read hbytes (fun _ => rfl) none' none' ?_ hend
    intro c a hc ha
    refine among_read hbytes (fun _ => rfl) none' none' ?_ hend
    intro c' a' hc' ha'
    cases ha
    cases ha'
    refine among_some (P := fun cs => diffClumps p c c' context = .ok cs) (among_outcome ?_ ?_ ?_) none' ?_ hend
    · exact fun a ha => ⟨rfl, by rintro b h; cases h; exact ha, nofun⟩
    · exact ⟨rfl, nofun, nofun⟩
    · exact fun e he => ⟨rfl, nofun, by simpa using he⟩
    · intro cs hcs
      refine ⟨rfl, ?_, nofun⟩
      rintro d h
      cases h
      exact ⟨rfl, rfl, rfl, c, c', hc, hc', hcs⟩
  have hex : ∀ {β : Type} (path : Path) {f : Bool → Steps β} {Q : Except Ended β → List UInt8 → Prop}, (∀ b, Among H (f b) so Q) →
      (∀ e, e ≠ .exited 0 → Q (.error e) so) → Among H (op (pathExists path) >>= f) so Q := by
    intro β path f Q h1 h2
    refine Among.bind (among_op fun fs fl hfs => sat_operation ?_ ?_ ?_)
    · exact fun fl => h1 _
    · exact fun fl n => h1 _
    · exact fun fl n => h2 _ (by simp)
  refine hex before (fun b => ?_) hend
  cases b with
  | true =>
    refine hex after (fun b => ?_) hend
    cases b with
    | true =>
      refine among_some text ?_ ?_ hend
      · refine among_some byte none' ?_ hend
        intro d hd
        exact ⟨rfl, by rintro e h; cases h; exact hd, nofun⟩
      · intro d hd
        exact ⟨rfl, by rintro e h; cases h; exact hd, nofun⟩
    | false =>
      refine among_some (lines before) ?_ ?_ hend
      · refine among_some (bytes before) none' ?_ hend
        intro d hd
        exact ⟨rfl, by rintro e h; cases h; exact hd, nofun⟩
      · intro d hd
        exact ⟨rfl, by rintro e h; cases h; exact hd, nofun⟩
  | false =>
    refine hex after (fun b => ?_) hend
    cases b with
    | true =>
      refine among_some (lines after) ?_ ?_ hend
      · refine among_some (bytes after) none' ?_ hend
        intro d hd
        exact ⟨rfl, by rintro e h; cases h; exact ⟨rfl, hd.2⟩, nofun⟩
      · intro d hd
        exact ⟨rfl, by rintro e h; cases h; exact ⟨rfl, hd.2⟩, nofun⟩
    | false => exact none'

/-- `pw_diff` among others. -/
theorem among_pwDiff (p : Profile) (before after : Path) (context : Nat) :
    Among H (pwDiffSteps p before after context) [] fun r so => r = .ok () → ∃ d out, MadeFrom p (Had H) before after context d ∧
      d.toWriter.run = (.ok (), out) ∧ (so = out ∨ so = out.dropLast) := by
  refine among_some (among_diffNew p before after context) nofun ?_ (fun e _ => nofun)
  intro d hd
  have key : ∀ (f : Option Unit → Steps Unit), f (some ()) = pure () → f none = Steps.exit 5 → ∀ (o : Outcome Unit) (n : Nat), (o = .ok () → d.toWriter.run.1 = .ok () ∧ (wholeLines d.toWriter.run.2).length ≤ n) →
      Among H (Steps.ofOutcome o >>= f) ([] ++ d.toWriter.run.2.take n) fun r so => r = .ok () → ∃ d out, MadeFrom p (Had H) before after context d ∧
      d.toWriter.run = (.ok (), out) ∧ (so = out ∨ so = out.dropLast) := by
    intro f f1 f2 o n ho
    cases o with
    | ok _ =>
      show Among H (f (some ())) _ _
      rw [f1]
      intro _
      obtain ⟨h1, h2⟩ := ho rfl
      have h1 : d.toWriter.run = (.ok (), d.toWriter.run.2) := Prod.ext h1 rfl
      exact ⟨d, _, hd, h1, take_wholeLines h1 h2⟩
    | ioErr =>
      show Among H (f none) _ _
      rw [f2]
      exact nofun
    | panic => exact nofun
    | diverge => exact nofun
  have hle : ∀ bs : List UInt8, (wholeLines bs).length ≤ bs.length := by
    intro bs
    unfold wholeLines
    rw [List.length_reverse]
    exact Nat.le_trans (List.dropWhile_sublist _).length_le (by rw [List.length_reverse]; exact Nat.le_refl _)
  refine Among.bind (among_op fun fs fl hfs => sat_operation ?_ ?_ ?_)
  · intro fl
    have hl : [] ++ d.toWriter.run.2 = [] ++ d.toWriter.run.2.take d.toWriter.run.2.length := by rw [List.take_length]
    show Among H (_ >>= _) ([] ++ d.toWriter.run.2) _
    rw [hl]
    exact key _ rfl rfl d.toWriter.run.1 d.toWriter.run.2.length (fun h => ⟨h, hle _⟩)
  · intro fl n
    refine key _ rfl rfl _ n ?_
    intro h
    simp only at h
    split at h
    · exact ⟨h, by assumption⟩
    · cases h
  · intro fl n
    exact nofun

end

/-! ## C107 -/

/-- Among any other processes, whatever they do, taking turns in any order, whichever operations fail: if `pw_diff` ends with
exit status 0 then its output is a diff (perhaps without the last byte, see C62) made from contents that the two paths had at
times during the run. -/
theorem C107_made (m : Machine) (i : Nat) (p : Profile) (before after : Path) (context : Nat) (faults : List Fault)
    (h : m.proc i = ⟨pwDiffSteps p before after context, faults, []⟩) (order : List Nat)
    (he : ((m.turns order).proc i).rest = .ended (.ok ())) :
    ∃ d out, d.toWriter.run = (.ok (), out) ∧
      (((m.turns order).proc i).stdout = out ∨ ((m.turns order).proc i).stdout = out.dropLast) ∧
      MadeFrom p (fun path c => ∃ k, (m.turns (order.take k)).fs.contentAt path = some ⟨c, false⟩) before after context d := by
  have := Machine.among_turns (H := fun fs => ∃ k, (m.turns (order.take k)).fs = fs) (i := i) order m (fun k => ⟨k, rfl⟩)
    (by rw [h]; exact among_pwDiff p before after context)
  rw [he] at this
  obtain ⟨d, out, h1, h2, h3⟩ := this rfl
  refine ⟨d, out, h2, h3, ?_⟩
  refine h1.mono ?_
  rintro path c ⟨_, ⟨k, rfl⟩, hc⟩
  exact ⟨k, hc⟩

/-- A run of `pw_diff`. -/
structure DiffRun where
  profile : Profile
  before : Path
  after : Path
  context : Nat

/-- Runs of `pw_patch` and, numbered after them, runs of `pw_diff` have been started. -/
def Machine.startWith (fs : FS) (jobs : List Job) (runs : List DiffRun) (faults : Nat → List Fault) : Machine where
  fs := fs
  proc i := match jobs[i]? with
    | some j => ⟨pwPatchSteps j.profile j.temp j.patch j.reverse, faults i, []⟩
    | none => match runs[i - jobs.length]? with
      | some r => ⟨pwDiffSteps r.profile r.before r.after r.context, faults i, []⟩
      | none => ⟨.ended (.ok ()), [], []⟩

variable {fs : FS} {jobs : List Job}

/-- Runs of `pw_diff` make no difference to the files and to runs of `pw_patch`. -/
theorem C107_undisturbed (fs : FS) (jobs : List Job) (runs : List DiffRun) (faults : Nat → List Fault) (order : List Nat) :
    ((Machine.startWith fs jobs runs faults).turns order).fs = ((Machine.start fs jobs faults).turns order).fs ∧
    ∀ i, i < jobs.length →
      ((Machine.startWith fs jobs runs faults).turns order).proc i = ((Machine.start fs jobs faults).turns order).proc i := by
  refine Machine.turns_readers jobs.length order _ _ rfl ?_ ?_ ?_
  · intro i hi
    simp only [Machine.startWith, Machine.start, List.getElem?_eq_getElem hi]
  · intro i hi
    simp only [Machine.startWith, List.getElem?_eq_none hi]
    split
    · exact readOnly_pwDiff _ _ _ _
    · trivial
  · intro i hi
    simp only [Machine.start, List.getElem?_eq_none hi]
    trivial

/-- What a file holds at any time while runs of `pw_patch` that change files take turns. -/
theorem content_patched (hr : Ready fs jobs) (faults : Nat → List Fault) (order : List Nat) {path : Path} {c₀ : List UInt8}
    (hf : fs.node (fs.entry path) = some (.file c₀)) (ht : ∀ j ∈ jobs, fs.entry path ≠ fs.entry j.temp) :
    ∃ s c, ((Machine.start fs jobs faults).turns order).fs.contentAt path = some ⟨c, false⟩ ∧
      PatchedBy fs jobs (fs.entry path) s c ∧ ((∀ j ∈ jobs, fs.entry path ≠ fs.entry j.target) → c = c₀) := by
  obtain ⟨h1, h2, h3⟩ := C103_atomic hr faults order
  by_cases hj : ∃ j ∈ jobs, fs.entry path = fs.entry j.target
  · obtain ⟨j, hj, he⟩ := hj
    obtain ⟨s, new, h4, h5, -⟩ := h3 j hj
    refine ⟨s, new, FS.contentAt_file ?_, by rw [he]; exact h5, fun h => absurd he (h j hj)⟩
    rw [h1, he]
    exact h4
  · have hj : ∀ j ∈ jobs, fs.entry path ≠ fs.entry j.target := fun j h he => hj ⟨j, h, he⟩
    refine ⟨[], c₀, FS.contentAt_file ?_, .start hf, fun _ => rfl⟩
    rw [h1, h2 _ fun j h => ⟨ht j h, hj j h⟩]
    exact hf

/-- While runs of `pw_patch` change files, in any order, failing or killed anywhere: if a run of `pw_diff` ends with exit status
0, its output is a diff made from what complete patches, each applied at most once, have made of the two files. -/
theorem C107_patched (hr : Ready fs jobs) (runs : List DiffRun) (faults : Nat → List Fault) (order : List Nat) (k : Nat)
    (r : DiffRun) (hk : runs[k]? = some r)
    (hb : ∃ c, fs.node (fs.entry r.before) = some (.file c)) (ha : ∃ c, fs.node (fs.entry r.after) = some (.file c))
    (ht : ∀ j ∈ jobs, fs.entry r.before ≠ fs.entry j.temp ∧ fs.entry r.after ≠ fs.entry j.temp)
    (he : (((Machine.startWith fs jobs runs faults).turns order).proc (jobs.length + k)).rest = .ended (.ok ())) :
    ∃ d out, d.toWriter.run = (.ok (), out) ∧
      ((((Machine.startWith fs jobs runs faults).turns order).proc (jobs.length + k)).stdout = out ∨
       (((Machine.startWith fs jobs runs faults).turns order).proc (jobs.length + k)).stdout = out.dropLast) ∧
      MadeFrom r.profile (fun path c => ∃ s, PatchedBy fs jobs (fs.entry path) s c) r.before r.after r.context d := by
  obtain ⟨d, out, h1, h2, h3⟩ := C107_made _ (jobs.length + k) r.profile r.before r.after r.context (faults (jobs.length + k))
    (by simp [Machine.startWith, hk]) order he
  refine ⟨d, out, h1, h2, h3.mono' ?_ ?_⟩
  all_goals
    rintro c ⟨n, hn⟩
    rw [(C107_undisturbed fs jobs runs faults _).1] at hn
  · obtain ⟨c₀, hb⟩ := hb
    obtain ⟨s, c', h4, h5, -⟩ := content_patched hr faults (order.take n) hb fun j hj => (ht j hj).1
    rw [h4] at hn
    cases hn
    exact ⟨s, h5⟩
  · obtain ⟨c₀, ha⟩ := ha
    obtain ⟨s, c', h4, h5, -⟩ := content_patched hr faults (order.take n) ha fun j hj => (ht j hj).2
    rw [h4] at hn
    cases hn
    exact ⟨s, h5⟩

/-! ## C108 -/

/-- One would expect: `pw_diff` compares the two files as they were at one time. -/
def C108_statement : Prop :=
  ∀ (fs : FS) (jobs : List Job) (r : DiffRun) (order : List Nat), Ready fs jobs →
    (∃ c, fs.node (fs.entry r.before) = some (.file c)) → (∃ c, fs.node (fs.entry r.after) = some (.file c)) →
    (∀ j ∈ jobs, fs.entry r.before ≠ fs.entry j.temp ∧ fs.entry r.after ≠ fs.entry j.temp) →
    let m := Machine.startWith fs jobs [r] fun _ => []
    ((m.turns order).proc jobs.length).rest = .ended (.ok ()) →
    ∃ d out k, d.toWriter.run = (.ok (), out) ∧
      (((m.turns order).proc jobs.length).stdout = out ∨ ((m.turns order).proc jobs.length).stdout = out.dropLast) ∧
      MadeFrom r.profile (fun path c => (m.turns (order.take k)).fs.contentAt path = some ⟨c, false⟩) r.before r.after r.context d

/-- It holds if only one of the two files is being changed. -/
theorem C108_partial (hr : Ready fs jobs) (runs : List DiffRun) (faults : Nat → List Fault) (order : List Nat) (k : Nat)
    (r : DiffRun) (hk : runs[k]? = some r)
    (hb : ∃ c, fs.node (fs.entry r.before) = some (.file c)) (ha : ∃ c, fs.node (fs.entry r.after) = some (.file c))
    (ht : ∀ j ∈ jobs, fs.entry r.before ≠ fs.entry j.temp ∧ fs.entry r.after ≠ fs.entry j.temp)
    (hone : (∀ j ∈ jobs, fs.entry r.before ≠ fs.entry j.target) ∨ ∀ j ∈ jobs, fs.entry r.after ≠ fs.entry j.target)
    (he : (((Machine.startWith fs jobs runs faults).turns order).proc (jobs.length + k)).rest = .ended (.ok ())) :
    let m := Machine.startWith fs jobs runs faults
    ∃ d out n, d.toWriter.run = (.ok (), out) ∧
      (((m.turns order).proc (jobs.length + k)).stdout = out ∨ ((m.turns order).proc (jobs.length + k)).stdout = out.dropLast) ∧
      MadeFrom r.profile (fun path c => (m.turns (order.take n)).fs.contentAt path = some ⟨c, false⟩) r.before r.after r.context d := by
  intro m
  obtain ⟨d, out, h1, h2, h3⟩ := C107_made _ (jobs.length + k) r.profile r.before r.after r.context (faults (jobs.length + k))
    (by simp [Machine.startWith, hk]) order he
  have still : ∀ path, (∃ c, fs.node (fs.entry path) = some (.file c)) → (∀ j ∈ jobs, fs.entry path ≠ fs.entry j.temp) →
      (∀ j ∈ jobs, fs.entry path ≠ fs.entry j.target) → ∀ n n' c, (m.turns (order.take n)).fs.contentAt path = some ⟨c, false⟩ →
      (m.turns (order.take n')).fs.contentAt path = some ⟨c, false⟩ := by
    rintro path ⟨c₀, hf⟩ ht hno n n' c hc
    rw [(C107_undisturbed fs jobs runs faults _).1] at hc ⊢
    obtain ⟨s, c1, e1, -, e2⟩ := content_patched hr faults (order.take n) hf ht
    obtain ⟨s', c2, e3, -, e4⟩ := content_patched hr faults (order.take n') hf ht
    rw [hc] at e1
    cases e1
    rw [e3, e4 hno, e2 hno]
  have key : ∃ n, MadeFrom r.profile (fun path c => (m.turns (order.take n)).fs.contentAt path = some ⟨c, false⟩) r.before r.after
      r.context d := by
    refine h3.atOnce ?_
    rintro b a n hn n' hn'
    rcases hone with h | h
    · exact ⟨n', still _ hb (fun j hj => (ht j hj).1) h n n' b hn, hn'⟩
    · exact ⟨n, hn, still _ ha (fun j hj => (ht j hj).2) h n' n a hn'⟩
  obtain ⟨n, hn⟩ := key
  exact ⟨d, out, n, h1, h2, hn⟩

/-- A run of `pw_patch` with all its turns in a row. -/
theorem turns_job {m : Machine} {i : Nat} {j : Job} {c old new so : List UInt8}
    (h : m.proc i = ⟨pwPatchSteps j.profile j.temp j.patch j.reverse, [], so⟩)
    (hc : m.fs.node (m.fs.entry j.patch) = some (.file c)) (hd : Diff.fromReader ⟨c, false⟩ = .ok j.diff)
    (hch : j.diff.changed = some j.target) (hold : m.fs.node (m.fs.entry j.target) = some (.file old))
    (hp : PatchedContent j.profile j.reverse j.diff old new) (ht : m.fs.node (m.fs.entry j.temp) = none) :
    ∃ n, m.turns (List.replicate n i) =
      ⟨m.fs.set (m.fs.entry j.target) (some (.file new)), upd m.proc i ⟨.ended (.ok ()), [], so⟩⟩ := by
  have t₁ := turn_patch h (FS.contentAt_file hc) hd
  obtain ⟨β, b, wm, hw, t₂⟩ := turn_target (m := m.turn i) (i := i) (j := j) (old := old) (so := so) (by rw [t₁]; simp [upd]) hch
    (by rw [t₁]; exact FS.contentAt_file hold) hp
  have e : (m.turn i).turn i = ⟨m.fs, upd m.proc i ⟨patchContentSteps j.temp j.target wm, [], so⟩⟩ := by
    rw [t₂, t₁]
    congr 1
    funext k
    simp only [upd]
    split <;> rfl
  obtain ⟨n, t₃⟩ := turns_rest (m := (m.turn i).turn i) (i := i) (wm := wm) (so := so) (temp := j.temp) (target := j.target)
    (by rw [e]; simp [upd]) hw (by rw [e]; exact ht) (by rw [e]; exact hold)
  refine ⟨n + 2, ?_⟩
  rw [List.replicate_succ, List.replicate_succ, Machine.turns_cons, Machine.turns_cons, t₃, e]
  congr 1
  funext k
  simp only [upd]
  split <;> rfl

/-- A process that does not fail and reads. -/
theorem turn_reads {m : Machine} {i : Nat} {β : Type} {op : Sys β} {next : β → Steps Unit} {so so' : List UInt8} {b : β}
    (h : m.proc i = ⟨.step op next, [], so⟩) (ho : op ⟨m.fs, [], so⟩ = (.ok b, ⟨m.fs, [], so'⟩)) :
    m.turn i = ⟨m.fs, upd m.proc i ⟨next b, [], so'⟩⟩ := by
  rw [m.turn_ok (by rw [h]) (by rw [h]; exact ho)]
  rfl

theorem upd_thrice {α : Type u} (f : Nat → α) (i : Nat) (x y z : α) : upd (upd (upd f i x) i y) i z = upd f i z := by
  funext k
  simp only [upd]
  split <;> rfl

/-- `pw_diff` finds that both files are there, and reads the first one. -/
theorem turns_first {m : Machine} {i : Nat} {r : DiffRun} {so a : List UInt8} {s : Str}
    (h : m.proc i = ⟨pwDiffSteps r.profile r.before r.after r.context, [], so⟩)
    (hb : m.fs.contentAt r.before = some ⟨s.bytes, false⟩) (ha : m.fs.contentAt r.after = some ⟨a, false⟩) :
    ∃ next, m.turns [i, i, i] = ⟨m.fs, upd m.proc i ⟨.step (openFile r.after) next, [], so⟩⟩ ∧
      ∀ (t : Str) cs, diffClumps r.profile (splitInclusive s) (splitInclusive t) r.context = .ok cs →
        ∃ last, next (some ⟨t.bytes, false⟩) = .step (writeStdout (Diff.textChange ⟨r.before, r.after, cs⟩).toWriter) last ∧
          last (.ok ()) = .ended (.ok ()) := by
  have t₁ := turn_reads h (b := true) (so' := so) (by
    refine (pathExists_eq (w := ⟨m.fs, [], so⟩) rfl r.before).trans ?_
    rw [hb]; rfl)
  have e₁ := (congrArg (fun m => m.proc i) t₁).trans (upd_self _ _ _)
  have t₂ := turn_reads (m := m.turn i) (so := so) e₁ (b := true) (so' := so) (by
    refine (pathExists_eq (w := ⟨_, [], so⟩) rfl r.after).trans ?_
    rw [t₁]
    show (Except.ok (m.fs.contentAt r.after).isSome, _) = _
    rw [ha]; rfl)
  have e₂ := (congrArg (fun m => m.proc i) t₂).trans (upd_self _ _ _)
  have t₃ := turn_reads (m := (m.turn i).turn i) (so := so) e₂ (b := some ⟨s.bytes, false⟩) (so' := so) (by
    refine (openFile_eq (w := ⟨_, [], so⟩) rfl r.before).trans ?_
    rw [t₂, t₁]
    show (Except.ok (m.fs.contentAt r.before), _) = _
    rw [hb])
  have e₃ : m.turns [i, i, i] = ((m.turn i).turn i).turn i := rfl
  rw [e₃, t₃, t₂, t₁]
  simp only [Steps.bind, TextChangeDiff.newSteps, op, readText_bytes, Steps.ofOutcome, pure]
  refine ⟨_, congrArg (Machine.mk m.fs) (upd_thrice _ _ _ _ _), ?_⟩
  · intro t cs hcs
    simp only [Steps.bind, Bind.bind, readText_bytes, hcs]
    exact Exists.intro _ (And.intro (Eq.refl _) (by rfl))
/-- A run of `pw_diff` with all its turns in a row. -/
theorem turns_diff {m : Machine} {i : Nat} {r : DiffRun} {so out : List UInt8} {s t : Str} {cs : List (DiffClump Str)}
    (h : m.proc i = ⟨pwDiffSteps r.profile r.before r.after r.context, [], so⟩)
    (hb : m.fs.contentAt r.before = some ⟨s.bytes, false⟩) (ha : m.fs.contentAt r.after = some ⟨t.bytes, false⟩)
    (hd : diffClumps r.profile (splitInclusive s) (splitInclusive t) r.context = .ok cs)
    (hout : (Diff.textChange ⟨r.before, r.after, cs⟩).toWriter.run = (.ok (), out)) :
    m.turns [i, i, i, i, i] = ⟨m.fs, upd m.proc i ⟨.ended (.ok ()), [], so ++ out⟩⟩ := by
  obtain ⟨next, t₁, hnext⟩ := turns_first h hb ha
  obtain ⟨last, hl1, hl2⟩ := hnext t cs hd
  have t₂ := turn_reads (m := m.turns [i, i, i]) (i := i) (so := so) (so' := so) (b := some ⟨t.bytes, false⟩)
    ((congrArg (fun m => m.proc i) t₁).trans (upd_self _ _ _)) (by
    refine (openFile_eq (w := ⟨_, [], so⟩) rfl r.after).trans ?_
    rw [t₁]
    show (Except.ok (m.fs.contentAt r.after), _) = _
    rw [ha])
  rw [hl1] at t₂
  have t₃ := turn_reads (m := (m.turns [i, i, i]).turn i) (i := i) (so := so) (so' := so ++ out) (b := .ok ())
    ((congrArg (fun m => m.proc i) t₂).trans (upd_self _ _ _)) (by
    refine (operation_normal (w := ⟨_, [], so⟩) rfl).trans ?_
    show (Except.ok (Diff.toWriter _).run.1, World.mk _ _ (so ++ (Diff.toWriter _).run.2)) = _
    rw [hout])
  rw [hl2] at t₃
  show ((m.turns [i, i, i]).turn i).turn i = _
  rw [t₃, t₂, t₁]
  exact congrArg (Machine.mk m.fs) (upd_thrice _ _ _ _ _)

/-- A process that has had no turn has not begun. -/
theorem together_begin (hr : Ready fs jobs) (faults : Nat → List Fault) (order : List Nat) :
    ∃ cur stage, Together fs jobs ((Machine.start fs jobs faults).turns order) cur stage ∧ ∀ i, i ∉ order → stage i = .begin := by
  suffices ∀ (order : List Nat) (m : Machine) (s : List Nat), (∃ cur stage, Together fs jobs m cur stage ∧ ∀ i, i ∉ s → stage i = .begin) →
      ∃ cur stage, Together fs jobs (m.turns order) cur stage ∧ ∀ i, i ∉ s ++ order → stage i = .begin from
    this order _ [] ⟨_, _, .start fs jobs faults, fun _ _ => rfl⟩
  intro order
  induction order with
  | nil => intro m s h; rw [List.append_nil]; exact h
  | cons i order ih =>
    rintro m s ⟨cur, stage, h, hs⟩
    rw [List.append_cons]
    refine ih _ (s ++ [i]) ?_
    rcases together_turn hr h i with ⟨-, e⟩ | ⟨j, -, x, cur', -, h'⟩
    · exact ⟨cur, stage, by rw [e]; exact h, fun k hk => hs k fun h => hk (List.mem_append_left _ h)⟩
    · refine ⟨cur', _, h', fun k hk => ?_⟩
      rw [upd_other _ _ (fun h => hk (by rw [h]; simp))]
      exact hs k fun h => hk (List.mem_append_left _ h)

theorem turns_ended {m : Machine} {i : Nat} {r : Except Ended Unit} (h : (m.proc i).rest = .ended r) (order : List Nat) :
    ((m.turns order).proc i).rest = .ended r := by
  induction order generalizing m with
  | nil => exact h
  | cons k order ih =>
    refine ih ?_
    by_cases hk : i = k
    · subst hk; rw [m.turn_ended h]; exact h
    · rw [m.turn_other hk]; exact h

theorem PatchedContent.unique {p : Profile} {rev : Bool} {d : Diff} {old new new' : List UInt8} (h : PatchedContent p rev d old new)
    (h' : PatchedContent p rev d old new') : new = new' := by
  cases d with
  | textChange d =>
    obtain ⟨s, st, rfl, h⟩ := h
    obtain ⟨s', st', hs, h'⟩ := h'
    rw [Str.bytes_inj hs] at h'
    rw [h] at h'
    cases h'
    rfl
  | byteChange d =>
    have h : (byteApplyInto p d.clumps old rev).run = (.ok (), new) := h
    have h' : (byteApplyInto p d.clumps old rev).run = (.ok (), new') := h'
    rw [h] at h'
    cases h'
    rfl
  | textAdd d => cases h
  | textRemove d => cases h
  | byteAdd d => cases h
  | byteRemove d => cases h

/-- A file that only one run changes. -/
theorem PatchedBy.one {e i : Nat} {j : Job} (hj : jobs[i]? = some j)
    (hone : ∀ k l, jobs[k]? = some l → fs.entry l.target = e → k = i) {s : List Nat} {c : List UInt8} (h : PatchedBy fs jobs e s c) :
    (s = [] ∧ fs.node e = some (.file c)) ∨
      s = [i] ∧ ∃ c₀, fs.node e = some (.file c₀) ∧ PatchedContent j.profile j.reverse j.diff c₀ c := by
  induction h with
  | start h => exact .inl ⟨rfl, h⟩
  | next h hi hj' ht hp ih =>
    obtain rfl := hone _ _ hj' ht
    rw [hj] at hj'
    cases hj'
    rcases ih with ⟨rfl, h'⟩ | ⟨rfl, -⟩
    · exact .inr ⟨rfl, _, h', hp⟩
    · exact absurd (List.mem_singleton.2 rfl) hi

/-- Whatever two patches for the two files are: if both are applied after `pw_diff` has read the first file and before it
reads the second one, it compares the first file as it was with the second one as it has become. -/
theorem C108_mixed (fs : FS) (one two : Job) (r : DiffRun) (hr : Ready fs [one, two])
    (ht1 : fs.entry one.target = fs.entry r.before) (ht2 : fs.entry two.target = fs.entry r.after)
    (hne : fs.entry r.before ≠ fs.entry r.after)
    (h1 : fs.node (fs.entry one.temp) = none) (h2 : fs.node (fs.entry two.temp) = none) (s t : Str) (b a : List UInt8)
    (hb : fs.node (fs.entry r.before) = some (.file s.bytes)) (ha : fs.node (fs.entry r.after) = some (.file a))
    (hp1 : PatchedContent one.profile one.reverse one.diff s.bytes b)
    (hp2 : PatchedContent two.profile two.reverse two.diff a t.bytes) (cs : List (DiffClump Str))
    (hd : diffClumps r.profile (splitInclusive s) (splitInclusive t) r.context = .ok cs) (out : List UInt8)
    (hout : (Diff.textChange ⟨r.before, r.after, cs⟩).toWriter.run = (.ok (), out)) :
    ∃ order, let m := (Machine.startWith fs [one, two] [r] fun _ => []).turns order
      (∀ i, (m.proc i).rest = .ended (.ok ())) ∧ (m.proc 2).stdout = out ∧
      m.fs.contentAt r.before = some ⟨b, false⟩ ∧ m.fs.contentAt r.after = some ⟨t.bytes, false⟩ ∧
      ∀ n c c', ((Machine.startWith fs [one, two] [r] fun _ => []).turns (order.take n)).fs.contentAt r.before = some ⟨c, false⟩ →
        ((Machine.startWith fs [one, two] [r] fun _ => []).turns (order.take n)).fs.contentAt r.after = some ⟨c', false⟩ →
        (c = s.bytes ∧ c' = a) ∨ (c = b ∧ c' = a) ∨ (c = b ∧ c' = t.bytes) := by
  obtain ⟨c1, hc1, hd1⟩ := hr.held one (by simp)
  obtain ⟨c2, hc2, hd2⟩ := hr.held two (by simp)
  have ap1 := hr.apart one (by simp)
  have ap2 := hr.apart two (by simp)
  let m₀ := Machine.startWith fs [one, two] [r] fun _ => []
  obtain ⟨next, t₁, hnext⟩ := turns_first (m := m₀) (i := 2) (r := r) (so := []) (s := s) (a := a) rfl (FS.contentAt_file hb)
    (FS.contentAt_file ha)
  obtain ⟨last, hl1, hl2⟩ := hnext t cs hd
  let m₁ : Machine := ⟨fs, upd m₀.proc 2 ⟨.step (openFile r.after) next, [], []⟩⟩
  have t₁ : m₀.turns [2, 2, 2] = m₁ := t₁
  obtain ⟨n, t₂⟩ := turns_job (m := m₁) (i := 0) (j := one) (so := []) rfl hc1 hd1 (hr.changes one (by simp))
    (by show fs.node (fs.entry one.target) = _; rw [ht1]; exact hb) hp1 h1
  let m₂ : Machine := ⟨fs.set (fs.entry one.target) (some (.file b)), upd m₁.proc 0 ⟨.ended (.ok ()), [], []⟩⟩
  have t₂ : m₁.turns (List.replicate n 0) = m₂ := t₂
  have set₁ : ∀ e, e ≠ fs.entry one.target → m₂.fs.node e = fs.node e := fun e he => if_neg he
  obtain ⟨n', t₃⟩ := turns_job (m := m₂) (i := 1) (j := two) (so := []) rfl
    ((set₁ _ (ap2 one (by simp)).2.2).trans hc2) hd2 (hr.changes two (by simp))
    ((set₁ _ (by show fs.entry two.target ≠ _; rw [ht1, ht2]; exact hne.symm)).trans (by show fs.node (fs.entry two.target) = _; rw [ht2]; exact ha)) hp2
    ((set₁ _ (ap2 one (by simp)).1).trans h2)
  let m₃ : Machine := ⟨m₂.fs.set (fs.entry two.target) (some (.file t.bytes)), upd m₂.proc 1 ⟨.ended (.ok ()), [], []⟩⟩
  have t₃ : m₂.turns (List.replicate n' 1) = m₃ := t₃
  have cb : m₃.fs.contentAt r.before = some ⟨b, false⟩ := FS.contentAt_file (by
    show (if fs.entry r.before = fs.entry two.target then _ else if fs.entry r.before = fs.entry one.target then _ else _) = _
    rw [if_neg (by rw [ht2]; exact hne), if_pos ht1.symm])
  have ca : m₃.fs.contentAt r.after = some ⟨t.bytes, false⟩ := FS.contentAt_file (by
    show (if fs.entry r.after = fs.entry two.target then _ else _) = _
    rw [if_pos ht2.symm])
  have t₄ := turn_reads (m := m₃) (i := 2) (so := []) (so' := []) (b := some ⟨t.bytes, false⟩) rfl (by
    refine (openFile_eq (w := ⟨m₃.fs, [], []⟩) rfl r.after).trans ?_
    rw [ca])
  let m₄ : Machine := ⟨m₃.fs, upd m₃.proc 2 ⟨next (some ⟨t.bytes, false⟩), [], []⟩⟩
  have t₄ : m₃.turn 2 = m₄ := t₄
  have t₅ := turn_reads (m := m₄) (i := 2) (so := []) (so' := out) (b := .ok ()) (op := writeStdout _) (next := last)
    (by show Process.mk (next _) _ _ = _; rw [hl1]) (by
    refine (operation_normal (w := ⟨m₃.fs, [], []⟩) rfl).trans ?_
    show (Except.ok (Diff.toWriter _).run.1, World.mk _ _ ([] ++ (Diff.toWriter _).run.2)) = _
    rw [hout]
    rfl)
  rw [hl2] at t₅
  let order := [2, 2, 2] ++ List.replicate n 0 ++ (List.replicate n' 1 ++ [2, 2])
  have e : m₀.turns order = ⟨m₃.fs, upd m₄.proc 2 ⟨.ended (.ok ()), [], out⟩⟩ := by
    show m₀.turns ([2, 2, 2] ++ List.replicate n 0 ++ (List.replicate n' 1 ++ [2, 2])) = _
    rw [Machine.turns_append, Machine.turns_append, Machine.turns_append, t₁, t₂, t₃]
    show (m₃.turn 2).turn 2 = _
    rw [t₄, t₅]
  refine ⟨order, ?_, ?_, ?_, ?_, ?_⟩
  · intro i
    show ((m₀.turns order).proc i).rest = _
    rw [e]
    match i with
    | 0 => rfl
    | 1 => rfl
    | 2 => rfl
    | i + 3 => rfl
  · show ((m₀.turns order).proc 2).stdout = _
    rw [e]
    rfl
  · show (m₀.turns order).fs.contentAt _ = _
    rw [e]
    exact cb
  · show (m₀.turns order).fs.contentAt _ = _
    rw [e]
    exact ca
  · intro k c c' hcb hca
    rw [(C107_undisturbed fs [one, two] [r] _ _).1] at hcb hca
    have tmp1 : ∀ j ∈ [one, two], fs.entry r.before ≠ fs.entry j.temp := fun j hj => by
      rw [← ht1]; exact fun h => (hr.apart j hj one (by simp)).1 h.symm
    have tmp2 : ∀ j ∈ [one, two], fs.entry r.after ≠ fs.entry j.temp := fun j hj => by
      rw [← ht2]; exact fun h => (hr.apart j hj two (by simp)).1 h.symm
    have only1 : ∀ k l, [one, two][k]? = some l → fs.entry l.target = fs.entry r.before → k = 0 := by
      intro k l hk he
      match k, hk with
      | 0, _ => rfl
      | 1, hk => cases hk; exact absurd (he.symm.trans ht2) hne
      | k + 2, hk => cases hk
    have only2 : ∀ k l, [one, two][k]? = some l → fs.entry l.target = fs.entry r.after → k = 1 := by
      intro k l hk he
      match k, hk with
      | 0, hk => cases hk; exact absurd (ht1.symm.trans he) hne
      | 1, _ => rfl
      | k + 2, hk => cases hk
    have val : ∀ (x y : List UInt8) (path : Path), fs.node (fs.entry path) = some (.file x) → fs.node (fs.entry path) = some (.file y) → x = y := by
      intro x y path h1 h2
      rw [h1] at h2
      cases h2
      rfl
    obtain ⟨s1, x1, g1, g2, -⟩ := content_patched hr (fun _ => []) (order.take k) hb tmp1
    rw [g1] at hcb
    cases hcb
    obtain ⟨s2, x2, g3, g4, -⟩ := content_patched hr (fun _ => []) (order.take k) ha tmp2
    rw [g3] at hca
    cases hca
    have vb : c = s.bytes ∨ c = b := by
      rcases g2.one (i := 0) rfl only1 with ⟨-, h⟩ | ⟨-, c₀, h, hp⟩
      · exact .inl (val _ _ _ h hb)
      · rw [val _ _ _ h hb] at hp
        exact .inr (hp.unique hp1)
    have va : c' = a ∨ c' = t.bytes := by
      rcases g4.one (i := 1) rfl only2 with ⟨-, h⟩ | ⟨-, c₀, h, hp⟩
      · exact .inl (val _ _ _ h ha)
      · rw [val _ _ _ h ha] at hp
        exact .inr (hp.unique hp2)
    by_cases hk : k ≤ ([2, 2, 2] ++ List.replicate n 0).length
    · have hno : 1 ∉ order.take k := by
        rw [List.take_append_of_le_length hk]
        intro h
        have := List.mem_of_mem_take h
        simp at this
      obtain ⟨cur, stage, hT, hbegin⟩ := together_begin hr (fun _ => []) (order.take k)
      obtain ⟨new, q1, q2⟩ := hT.file _ tmp2 a ha
      have q3 : c' = new := by
        have := FS.contentAt_file (fs := ((Machine.start fs [one, two] fun _ => []).turns (order.take k)).fs) (path := r.after) (by rw [hT.entry]; exact q1)
        rw [g3] at this
        cases this
        rfl
      subst q3
      have xa : c' = a := by
        rcases q2.one (i := 1) rfl only2 with ⟨-, h⟩ | ⟨hs, -⟩
        · exact val _ _ _ h ha
        · have := hT.had (fs.entry r.after) 1 (by rw [hs]; simp)
          rw [hbegin 1 hno] at this
          rcases this with h | h | h <;> cases h
      rcases vb with h | h
      · exact .inl ⟨h, xa⟩
      · exact .inr (.inl ⟨h, xa⟩)
    · have xb : c = b := by
        obtain ⟨u, hu⟩ : ∃ u, order.take k = [2, 2, 2] ++ List.replicate n 0 ++ u :=
          ⟨_, by
            show List.take k (([2, 2, 2] ++ List.replicate n 0) ++ _) = _
            rw [List.take_append, List.take_of_length_le (Nat.le_of_not_le hk)]⟩
        have hend : (((Machine.start fs [one, two] fun _ => []).turns (order.take k)).proc 0).rest = .ended (.ok ()) := by
          rw [← (C107_undisturbed fs [one, two] [r] _ _).2 0 (by simp), hu, Machine.turns_append]
          refine turns_ended ?_ u
          show ((m₀.turns _).proc 0).rest = _
          rw [Machine.turns_append, t₁, t₂]
          rfl
        obtain ⟨s', new, q1, q2, q3⟩ := C104_partial hr (fun _ => []) (order.take k) one (by simp) (by
          intro u i v _ j k' l hj hl he he' hki
          rw [ht1] at he he'
          exact absurd ((only1 _ _ hl he').trans (only1 _ _ hj he).symm) hki)
        have q4 := q3 0 one rfl rfl hend
        rw [ht1] at q1 q2
        have q5 : c = new := by
          have := FS.contentAt_file (fs := ((Machine.start fs [one, two] fun _ => []).turns (order.take k)).fs) (path := r.before)
            (by rw [(C103_atomic hr _ _).1]; exact q1)
          rw [g1] at this
          cases this
          rfl
        subst q5
        rcases q2.one (i := 0) rfl only1 with ⟨hs, -⟩ | ⟨-, c₀, h, hp⟩
        · rw [hs] at q4; cases q4
        · rw [val _ _ _ h hb] at hp
          exact hp.unique hp1
      rcases va with h | h
      · exact .inr (.inl ⟨xb, h⟩)
      · exact .inr (.inr ⟨xb, h⟩)

/-- Two patches for two files. -/
def mixedOne : Diff := .byteChange ⟨[65], [88], false, [⟨(0, 0), ⟨0, [97, 10]⟩, ⟨0, [98, 10]⟩⟩]⟩
def mixedTwo : Diff := .byteChange ⟨[66], [89], false, [⟨(0, 0), ⟨0, [99, 10]⟩, ⟨0, [100, 10]⟩⟩]⟩

/-- A file system with four files. -/
theorem FS.ofFiles_four (a b c d : List UInt8) : let fs := FS.ofFiles [([65], a), ([66], b), ([67], c), ([68], d)]
    fs.entry [65] = 0 ∧ fs.entry [66] = 1 ∧ fs.entry [67] = 2 ∧ fs.entry [68] = 3 ∧ fs.entry [84] = 5 ∧ fs.entry [85] = 4 ∧
      fs.node 0 = some (.file a) ∧ fs.node 1 = some (.file b) ∧ fs.node 2 = some (.file c) ∧ fs.node 3 = some (.file d) ∧
      fs.node 4 = none ∧ fs.node 5 = none :=
  ⟨rfl, rfl, rfl, rfl, rfl, rfl, rfl, rfl, rfl, rfl, rfl, rfl⟩

def mixedFS : FS := FS.ofFiles [([65], [97, 10]), ([66], [99, 10]), ([67], mixedOne.fileContent), ([68], mixedTwo.fileContent)]

def mixedJobOne : Job := ⟨.release, [84], [67], false, mixedOne, [65]⟩
def mixedJobTwo : Job := ⟨.release, [85], [68], false, mixedTwo, [66]⟩


theorem mixedFS_ready : Ready mixedFS [mixedJobOne, mixedJobTwo] := by
  obtain ⟨e1, e2, e3, e4, e5, e6, n1, n2, n3, n4, -, -⟩ :=
    FS.ofFiles_four [97, 10] [99, 10] mixedOne.fileContent mixedTwo.fileContent
  have two : ∀ {P : Job → Prop}, P mixedJobOne → P mixedJobTwo → ∀ j ∈ [mixedJobOne, mixedJobTwo], P j := by
    intro P h1 h2 j hj
    rcases List.mem_cons.1 hj with rfl | hj
    · exact h1
    · rw [List.mem_singleton.1 hj]
      exact h2
  have hrd1 : Diff.fromReader ⟨mixedOne.fileContent, false⟩ = .ok mixedOne := by
    refine (toWriter_fromReader mixedOne ?_ ?_).2
    · intro c hc
      simp only [List.mem_singleton] at hc
      subst hc
      simp [DiffClump.InRange, wordSize]
    · intro path h
      simp only [mixedOne, Diff.paths, List.mem_cons, List.not_mem_nil, or_false] at h
      rcases h with rfl | rfl
      · exact ⟨['A'], by decide⟩
      · exact ⟨['X'], by decide⟩
  have hrd2 : Diff.fromReader ⟨mixedTwo.fileContent, false⟩ = .ok mixedTwo := by
    refine (toWriter_fromReader mixedTwo ?_ ?_).2
    · intro c hc
      simp only [List.mem_singleton] at hc
      subst hc
      simp [DiffClump.InRange, wordSize]
    · intro path h
      simp only [mixedTwo, Diff.paths, List.mem_cons, List.not_mem_nil, or_false] at h
      rcases h with rfl | rfl
      · exact ⟨['B'], by decide⟩
      · exact ⟨['Y'], by decide⟩
  have p1 : mixedFS.entry mixedJobOne.patch = 2 := e3
  have p2 : mixedFS.entry mixedJobTwo.patch = 3 := e4
  have q1 : mixedFS.entry mixedJobOne.temp = 5 := e5
  have q2 : mixedFS.entry mixedJobTwo.temp = 4 := e6
  have r1 : mixedFS.entry mixedJobOne.target = 0 := e1
  have r2 : mixedFS.entry mixedJobTwo.target = 1 := e2
  refine ⟨two ⟨_, ?_, hrd1⟩ ⟨_, ?_, hrd2⟩, two rfl rfl, two ⟨[97, 10], ?_⟩ ⟨[99, 10], ?_⟩, two (two ?_ ?_) (two ?_ ?_), ?_⟩
  · rw [p1]; exact n3
  · rw [p2]; exact n4
  · rw [r1]; exact n1
  · rw [r2]; exact n2
  · rw [p1, q1, r1]; decide
  · rw [p1, p2, q1, r2]; decide
  · rw [p1, p2, q2, r1]; decide
  · rw [p2, q2, r2]; decide
  · simp only [List.pairwise_cons, List.mem_singleton, forall_eq, List.not_mem_nil, false_implies, implies_true, and_true,
      List.Pairwise.nil]
    rw [q1, q2]
    decide

def mixedRun : DiffRun := ⟨.release, [65], [66], 3⟩

/-- The diff from `a` to `d`. -/
def mixedOut : Diff := .textChange ⟨[65], [66], [⟨(0, 0), ⟨0, [['a', '\n']]⟩, ⟨0, [['d', '\n']]⟩⟩]⟩

theorem mixedOut_run : mixedOut.toWriter.run = (.ok (), mixedOut.toWriter.run.2) := by
  have h : mixedOut.toWriter.run.1 = .ok () := by decide +kernel
  rw [← h]

theorem mixedOut_differs {At : Path → List UInt8 → Prop} {d : Diff} (g3 : MadeFrom .release At [65] [66] 3 d)
    (times : ∀ c c', At [65] c → At [66] c' →
      (c = Str.bytes ['a', '\n'] ∧ c' = Str.bytes ['c', '\n']) ∨ (c = Str.bytes ['b', '\n'] ∧ c' = Str.bytes ['c', '\n']) ∨
        (c = Str.bytes ['b', '\n'] ∧ c' = Str.bytes ['d', '\n']))
    (timesB : ∀ c, At [65] c → c = Str.bytes ['a', '\n'] ∨ c = Str.bytes ['b', '\n'])
    (timesA : ∀ c, At [66] c → c = Str.bytes ['c', '\n'] ∨ c = Str.bytes ['d', '\n']) :
    ¬ (mixedOut.toWriter.run.2 = d.toWriter.run.2 ∨ mixedOut.toWriter.run.2 = d.toWriter.run.2.dropLast) := by
  intro g2
  have differs : ∀ e, d = e →
      ¬ (mixedOut.toWriter.run.2 = e.toWriter.run.2 ∨ mixedOut.toWriter.run.2 = e.toWriter.run.2.dropLast) → False := by
    rintro e rfl h
    exact h g2
  cases d with
  | textChange d =>
    obtain ⟨rfl', rfl'', s, t, hs, ht, hcs⟩ := g3
    have hd : ∀ cs, diffClumps .release (splitInclusive s) (splitInclusive t) 3 = .ok cs → Diff.textChange d = .textChange ⟨[65], [66], cs⟩ := by
      intro cs h
      have hcs : diffClumps .release (splitInclusive s) (splitInclusive t) 3 = .ok d.clumps := hcs
      rw [h] at hcs
      cases hcs
      rw [← rfl', ← rfl'']
    rcases times _ _ hs ht with ⟨h, h'⟩ | ⟨h, h'⟩ | ⟨h, h'⟩ <;> cases Str.bytes_inj h <;> cases Str.bytes_inj h'
    · exact differs _ (hd [⟨(0, 0), ⟨0, [['a', '\n']]⟩, ⟨0, [['c', '\n']]⟩⟩] (by decide +kernel)) (by decide +kernel)
    · exact differs _ (hd [⟨(0, 0), ⟨0, [['b', '\n']]⟩, ⟨0, [['c', '\n']]⟩⟩] (by decide +kernel)) (by decide +kernel)
    · exact differs _ (hd [⟨(0, 0), ⟨0, [['b', '\n']]⟩, ⟨0, [['d', '\n']]⟩⟩] (by decide +kernel)) (by decide +kernel)
  | byteChange d =>
    obtain ⟨rfl', rfl'', hz, s, t, hs, ht, hcs⟩ := g3
    have hd : ∀ cs, diffClumps .release s t 3 = .ok cs → Diff.byteChange d = .byteChange ⟨[65], [66], false, cs⟩ := by
      intro cs h
      have hcs : diffClumps .release s t 3 = .ok d.clumps := hcs
      rw [h] at hcs
      cases hcs
      rw [← rfl', ← rfl'', ← hz]
    rcases times _ _ hs ht with ⟨h, h'⟩ | ⟨h, h'⟩ | ⟨h, h'⟩ <;> subst h <;> subst h'
    · exact differs _ (hd [⟨(0, 1), ⟨0, [97, 10]⟩, ⟨0, [99, 10]⟩⟩] (by decide +kernel)) (by decide +kernel)
    · exact differs _ (hd [⟨(0, 1), ⟨0, [98, 10]⟩, ⟨0, [99, 10]⟩⟩] (by decide +kernel)) (by decide +kernel)
    · exact differs _ (hd [⟨(0, 1), ⟨0, [98, 10]⟩, ⟨0, [100, 10]⟩⟩] (by decide +kernel)) (by decide +kernel)
  | textRemove d =>
    obtain ⟨path, lines⟩ := d
    obtain ⟨rfl, s, hs, rfl⟩ := g3
    rcases timesB _ hs with h | h <;> cases Str.bytes_inj h <;> exact differs _ rfl (by decide +kernel)
  | byteRemove d =>
    obtain ⟨path, z, bytes⟩ := d
    obtain ⟨rfl, rfl, hs⟩ := g3
    rcases timesB _ hs with h | h <;> cases h <;> exact differs _ rfl (by decide +kernel)
  | textAdd d =>
    obtain ⟨path, lines⟩ := d
    obtain ⟨rfl, s, hs, rfl⟩ := g3
    rcases timesA _ hs with h | h <;> cases Str.bytes_inj h <;> exact differs _ rfl (by decide +kernel)
  | byteAdd d =>
    obtain ⟨path, z, bytes⟩ := d
    obtain ⟨rfl, rfl, hs⟩ := g3
    rcases timesA _ hs with h | h <;> cases h <;> exact differs _ rfl (by decide +kernel)

/-- It fails: `A` is changed from `a` to `b`, then `B` from `c` to `d`, and `pw_diff A B` writes the diff from `a` to `d`. -/
theorem C108_refuted : ¬ C108_statement := by
  intro hall
  obtain ⟨e1, e2, e3, e4, e5, e6, n1, n2, n3, n4, n5, n6⟩ :=
    FS.ofFiles_four [97, 10] [99, 10] mixedOne.fileContent mixedTwo.fileContent
  have f1 : mixedFS.entry [65] = 0 := e1
  have f2 : mixedFS.entry [66] = 1 := e2
  have p1 : mixedFS.entry mixedJobOne.target = 0 := e1
  have p2 : mixedFS.entry mixedJobTwo.target = 1 := e2
  have q1 : mixedFS.entry mixedJobOne.temp = 5 := e5
  have q2 : mixedFS.entry mixedJobTwo.temp = 4 := e6
  have ba : Str.bytes ['a', '\n'] = [97, 10] := by decide
  have bb : Str.bytes ['b', '\n'] = [98, 10] := by decide
  have bc : Str.bytes ['c', '\n'] = [99, 10] := by decide
  have bd : Str.bytes ['d', '\n'] = [100, 10] := by decide
  obtain ⟨order, h1, h2, -, -, h3⟩ := C108_mixed mixedFS mixedJobOne mixedJobTwo mixedRun mixedFS_ready (p1.trans f1.symm)
    (p2.trans f2.symm) (by show mixedFS.entry [65] ≠ mixedFS.entry [66]; rw [f1, f2]; decide) (by rw [q1]; exact n6)
    (by rw [q2]; exact n5) ['a', '\n'] ['d', '\n'] [98, 10] [99, 10]
    (by show mixedFS.node (mixedFS.entry [65]) = _; rw [f1, ba]; exact n1)
    (by show mixedFS.node (mixedFS.entry [66]) = _; rw [f2]; exact n2)
    (by rw [ba]; show (byteApplyInto _ _ _ _).run = _; decide +kernel)
    (by rw [bd]; show (byteApplyInto _ _ _ _).run = _; decide +kernel)
    [⟨(0, 0), ⟨0, [['a', '\n']]⟩, ⟨0, [['d', '\n']]⟩⟩] (by decide +kernel) mixedOut.toWriter.run.2
    mixedOut_run
  obtain ⟨d, out, k, g1, g2, g3⟩ := hall mixedFS [mixedJobOne, mixedJobTwo] mixedRun order mixedFS_ready
    ⟨_, by show mixedFS.node (mixedFS.entry [65]) = _; rw [f1]; exact n1⟩
    ⟨_, by show mixedFS.node (mixedFS.entry [66]) = _; rw [f2]; exact n2⟩
    (by
      intro j hj
      show mixedFS.entry [65] ≠ _ ∧ mixedFS.entry [66] ≠ _
      rw [f1, f2]
      rcases List.mem_cons.1 hj with rfl | hj
      · rw [q1]; decide
      · rw [List.mem_singleton.1 hj, q2]; decide) (h1 2)
  have g2 : mixedOut.toWriter.run.2 = d.toWriter.run.2 ∨ mixedOut.toWriter.run.2 = d.toWriter.run.2.dropLast := by
    rw [g1]
    show _ = out ∨ _ = out.dropLast
    rw [← h2]
    exact g2
  have times : ∀ c c', ((Machine.startWith mixedFS [mixedJobOne, mixedJobTwo] [mixedRun] fun _ => []).turns (order.take k)).fs.contentAt [65] = some ⟨c, false⟩ →
      ((Machine.startWith mixedFS [mixedJobOne, mixedJobTwo] [mixedRun] fun _ => []).turns (order.take k)).fs.contentAt [66] = some ⟨c', false⟩ →
      (c = Str.bytes ['a', '\n'] ∧ c' = Str.bytes ['c', '\n']) ∨ (c = Str.bytes ['b', '\n'] ∧ c' = Str.bytes ['c', '\n']) ∨
        (c = Str.bytes ['b', '\n'] ∧ c' = Str.bytes ['d', '\n']) := by
    intro c c' hc hc'
    rw [bb, bc]
    exact h3 k c c' hc hc'
  obtain ⟨-, x, y1, -⟩ := content_patched mixedFS_ready (fun _ => []) (order.take k) (path := [65]) (by rw [f1]; exact n1) (by
      intro j hj
      rw [f1]
      rcases List.mem_cons.1 hj with rfl | hj
      · rw [q1]; decide
      · rw [List.mem_singleton.1 hj, q2]; decide)
  obtain ⟨-, x', y2, -⟩ := content_patched mixedFS_ready (fun _ => []) (order.take k) (path := [66]) (by rw [f2]; exact n2) (by
      intro j hj
      rw [f2]
      rcases List.mem_cons.1 hj with rfl | hj
      · rw [q1]; decide
      · rw [List.mem_singleton.1 hj, q2]; decide)
  rw [← (C107_undisturbed mixedFS [mixedJobOne, mixedJobTwo] [mixedRun] _ _).1] at y1 y2
  have timesB : ∀ c, ((Machine.startWith mixedFS [mixedJobOne, mixedJobTwo] [mixedRun] fun _ => []).turns (order.take k)).fs.contentAt [65] = some ⟨c, false⟩ →
      c = Str.bytes ['a', '\n'] ∨ c = Str.bytes ['b', '\n'] := by
    intro c hc
    rcases times c x' hc y2 with h | h | h
    · exact .inl h.1
    · exact .inr h.1
    · exact .inr h.1
  have timesA : ∀ c, ((Machine.startWith mixedFS [mixedJobOne, mixedJobTwo] [mixedRun] fun _ => []).turns (order.take k)).fs.contentAt [66] = some ⟨c, false⟩ →
      c = Str.bytes ['c', '\n'] ∨ c = Str.bytes ['d', '\n'] := by
    intro c hc
    rcases times x c y1 hc with h | h | h
    · exact .inl h.2
    · exact .inl h.2
    · exact .inr h.2
  exact mixedOut_differs g3 times timesB timesA g2

/-- A case that meets the hypotheses of `C107_patched` and `C108_partial`. -/
example : Ready mixedFS [mixedJobTwo] ∧ (∀ j ∈ [mixedJobTwo], mixedFS.entry mixedRun.before ≠ mixedFS.entry j.target) ∧
    (∀ j ∈ [mixedJobTwo], mixedFS.entry mixedRun.before ≠ mixedFS.entry j.temp ∧ mixedFS.entry mixedRun.after ≠ mixedFS.entry j.temp) ∧
    (((Machine.startWith mixedFS [mixedJobTwo] [mixedRun] fun _ => []).turns [0, 0, 1, 1, 1, 1, 1]).proc 1).rest = .ended (.ok ()) := by
  obtain ⟨e1, e2, e3, e4, e5, e6, n1, n2, n3, n4, n5, n6⟩ :=
    FS.ofFiles_four [97, 10] [99, 10] mixedOne.fileContent mixedTwo.fileContent
  have f1 : mixedFS.entry mixedRun.before = 0 := e1
  have f2 : mixedFS.entry mixedRun.after = 1 := e2
  have p2 : mixedFS.entry mixedJobTwo.target = 1 := e2
  have q2 : mixedFS.entry mixedJobTwo.temp = 4 := e6
  have hr := mixedFS_ready
  have hr' : Ready mixedFS [mixedJobTwo] := by
    have sub : ∀ j ∈ [mixedJobTwo], j ∈ [mixedJobOne, mixedJobTwo] := fun j hj => List.mem_cons_of_mem _ hj
    exact ⟨fun j hj => hr.held j (sub j hj), fun j hj => hr.changes j (sub j hj), fun j hj => hr.files j (sub j hj),
      fun j hj k hk => hr.apart j (sub j hj) k (sub k hk), List.pairwise_singleton _ _⟩
  refine ⟨hr', ?_, ?_, ?_⟩
  · intro j hj
    rw [List.mem_singleton.1 hj, f1, p2]
    decide
  · intro j hj
    rw [List.mem_singleton.1 hj, f1, f2, q2]
    decide
  · obtain ⟨c2, hc2, hd2⟩ := hr'.held mixedJobTwo (by simp)
    have t₁ := turn_patch (m := Machine.startWith mixedFS [mixedJobTwo] [mixedRun] fun _ => []) (i := 0) (j := mixedJobTwo) (so := []) rfl
      (FS.contentAt_file hc2) hd2
    have old : mixedFS.node (mixedFS.entry mixedJobTwo.target) = some (.file [99, 10]) := by rw [p2]; exact n2
    obtain ⟨β, b, wm, -, t₂⟩ := turn_target (m := (Machine.startWith mixedFS [mixedJobTwo] [mixedRun] fun _ => []).turn 0) (i := 0)
      (j := mixedJobTwo) (so := []) (old := [99, 10]) (new := [100, 10]) (by rw [t₁]; rfl) (hr'.changes mixedJobTwo (by simp))
      (by rw [t₁]; exact FS.contentAt_file old) (by show (byteApplyInto _ _ _ _).run = _; decide +kernel)
    have ba : Str.bytes ['a', '\n'] = [97, 10] := by decide
    have bc : Str.bytes ['c', '\n'] = [99, 10] := by decide
    have c1 : mixedFS.contentAt mixedRun.before = some ⟨Str.bytes ['a', '\n'], false⟩ := FS.contentAt_file (by rw [f1, ba]; exact n1)
    have c2 : mixedFS.contentAt mixedRun.after = some ⟨Str.bytes ['c', '\n'], false⟩ := FS.contentAt_file (by rw [f2, bc]; exact n2)
    rw [Machine.turns_cons, Machine.turns_cons]
    rw [turns_diff (m := ((Machine.startWith mixedFS [mixedJobTwo] [mixedRun] fun _ => []).turn 0).turn 0) (i := 1) (r := mixedRun)
      (so := []) (s := ['a', '\n']) (t := ['c', '\n']) (cs := [⟨(0, 0), ⟨0, [['a', '\n']]⟩, ⟨0, [['c', '\n']]⟩⟩])
      (out := (Diff.textChange ⟨[65], [66], [⟨(0, 0), ⟨0, [['a', '\n']]⟩, ⟨0, [['c', '\n']]⟩⟩]⟩).toWriter.run.2)
      (by rw [t₂, t₁]; rfl) (by rw [t₂, t₁]; exact c1) (by rw [t₂, t₁]; exact c2) (by decide +kernel)
      (by
        have h : (Diff.textChange ⟨[65], [66], [⟨(0, 0), ⟨0, [['a', '\n']]⟩, ⟨0, [['c', '\n']]⟩⟩]⟩).toWriter.run.1 = .ok () := by decide +kernel
        show (Diff.textChange ⟨[65], [66], [⟨(0, 0), ⟨0, [['a', '\n']]⟩, ⟨0, [['c', '\n']]⟩⟩]⟩).toWriter.run = _
        rw [← h])]
    rfl

end PwDiff
