import Verif.Proofs.LoggingRuns

/-! # C93–C95: what is logged and what is shown -/

namespace PwDiff

/-! ## C93 -/

/-- The messages that `pw_patch` shows with `-v` given `verbosity` times. -/
def patchShows (verbosity : Nat) (log : List Record) : List Record := log.filter (shown .pwPatch verbosity)

theorem patchShows_own (verbosity : Nat) (log : List Record) : patchShows verbosity log = (own log).filter (shown .pwPatch verbosity) := by
  unfold patchShows own
  rw [List.filter_filter]
  congr 1
  funext r
  unfold shown
  cases r.crate <;> simp

/-- Logging changes nothing: the programs that log end in the same way and leave the same state. -/
theorem C93_same (p : Profile) (temp patch before after : Path) (context : Nat) (rev : Bool) (w : World) :
    ((pwPatchL p temp patch rev).run w).1 = ((pwPatch p temp patch rev).run w).1 ∧
    ((pwPatchL p temp patch rev).run w).2.1 = ((pwPatch p temp patch rev).run w).2 ∧
    ((pwDiffL p before after context).run w).1 = ((pwDiff p before after context).run w).1 ∧
    ((pwDiffL p before after context).run w).2.1 = ((pwDiff p before after context).run w).2 :=
  ⟨((pwPatchL_erases p temp patch rev).run w).1, ((pwPatchL_erases p temp patch rev).run w).2,
    ((pwDiffL_erases p before after context).run w).1, ((pwDiffL_erases p before after context).run w).2⟩

theorem HoldsDiff.unique {fs : FS} {patch : Path} {d e : Diff} (hd : HoldsDiff fs patch d) (he : HoldsDiff fs patch e) : d = e := by
  obtain ⟨r, h1, h2⟩ := hd
  obtain ⟨s, g1, g2⟩ := he
  obtain rfl := Option.some.inj (h1.symm.trans g1)
  exact Outcome.ok.inj (h2.symm.trans g2)

/-- The full statement of C93: if the exit status of `pw_patch` is 0 and it shows no error, the change was made. -/
def C93_statement : Prop :=
  ∀ (p : Profile) (temp patch : Path) (rev : Bool) (w : World) (d : Diff) (verbosity : Nat), HoldsDiff w.fs patch d →
    ((pwPatchL p temp patch rev).run w).1 = .exited 0 →
    (∀ r ∈ patchShows verbosity ((pwPatchL p temp patch rev).run w).2.2, r.level ≠ .error) →
    ChangeMade p rev d w.fs ((pwPatchL p temp patch rev).run w).2.1.fs

/-- A run in which nothing goes wrong and a text file is patched: the messages about the clumps and then the statistics. -/
theorem C93_normal (p : Profile) (temp patch : Path) (rev : Bool) (w : World) (t : TextChangeDiff)
    (hp : HoldsDiff w.fs patch (.textChange t)) (hf : w.faults = []) (hfree : w.fs.node (w.fs.entry temp) = none) {s : Str}
    (hold : w.fs.contentAt t.beforePath = some ⟨s.bytes, false⟩) {st : Statistics} {new : List UInt8}
    (h : (applyInto p t.clumps (splitInclusive s) rev).run = (.ok st, new)) :
    (pwPatchL p temp patch rev).run w =
      (.exited 0, { w with fs := w.fs.set (w.fs.entry t.beforePath) (some (.file new)) },
        (applyIntoL p t.clumps (splitInclusive s) rev).run.2.2 ++ [⟨.pwPatch, .info, .statistics st⟩]) := by
  have := patchFileL_eq hf (f := Message.statistics) (fun ls => applyIntoL_erases p t.clumps ls rev) hold
    ((readText_eq_ok_iff _ _).2 ⟨rfl, s, rfl, rfl⟩) h hfree (FS.entry_not_dir hold)
  unfold LS.run
  rw [pwPatchL_eq hf p temp patch rev hp]
  unfold applyDiffL
  simp only
  rw [this]

/-- It fails: the only clump of the patch cannot be applied.  The library says so, but whatever the verbosity this is not
shown, the exit status is 0, and the file is overwritten with the text of the failure. -/
theorem C93_refuted : ∃ (w : World) (new : List UInt8), HoldsDiff w.fs [67] exampleFailing ∧
    w.fs.contentAt [65] = some ⟨Str.bytes ['x', '\n'], false⟩ ∧
    (pwPatchL .debug [84] [67] false).run w =
      (.exited 0, { w with fs := w.fs.set (w.fs.entry [65]) (some (.file new)) },
        [⟨.pwDiffLib, .error, .notApplied 1⟩, ⟨.pwPatch, .info, .statistics { failed := 1 }⟩]) ∧
    patchShows 0 ((pwPatchL .debug [84] [67] false).run w).2.2 = [] ∧
    (∀ verbosity, ∀ r ∈ patchShows verbosity ((pwPatchL .debug [84] [67] false).run w).2.2, r.level ≠ .error) ∧
    ¬ C93_statement := by
  obtain ⟨e1, e2, e3, e3', e4, e5, e6, e6', e7, e8⟩ := FS.ofFiles_two (Str.bytes ['x', '\n']) exampleFailing.fileContent
  generalize FS.ofFiles [([65], Str.bytes ['x', '\n']), ([67], exampleFailing.fileContent)] = fs at *
  have held : HoldsDiff fs [67] exampleFailing := by
    refine holdsDiff_of_file ?_ ?_ e8
    · intro c hc
      simp only [List.mem_singleton] at hc
      subst hc
      simp [DiffClump.InRange, wordSize]
    · intro path h
      simp only [exampleFailing, Diff.paths, List.mem_cons, List.not_mem_nil, or_false] at h
      rcases h with rfl | rfl
      · exact ⟨['A'], by decide⟩
      · exact ⟨['B'], by decide⟩
  generalize hrun : (applyInto .debug [(⟨(0, 0), ⟨0, [['b', '\n']]⟩, ⟨0, [['c', '\n']]⟩⟩ : DiffClump Str)] [['x', '\n']] false).run = x
  have hst : x.1 = .ok { failed := 1 } := by
    rw [← hrun]
    decide +kernel
  obtain ⟨r, new⟩ := x
  obtain rfl : r = _ := hst
  have main := C93_normal .debug [84] [67] false ⟨fs, [], []⟩ _ held rfl (by rw [e3, e6']) (s := ['x', '\n']) e7 hrun
  rw [show (applyIntoL .debug [(⟨(0, 0), ⟨0, [['b', '\n']]⟩, ⟨0, [['c', '\n']]⟩⟩ : DiffClump Str)]
    (splitInclusive ['x', '\n']) false).run.2.2 = [⟨.pwDiffLib, .error, .notApplied 1⟩] from by decide +kernel] at main
  have quiet : ∀ verbosity, ∀ r ∈ patchShows verbosity ((pwPatchL .debug [84] [67] false).run ⟨fs, [], []⟩).2.2, r.level ≠ .error := by
    intro v r hr
    rw [main] at hr
    simp only [patchShows, List.cons_append, List.nil_append, List.mem_filter, List.mem_cons, List.not_mem_nil, or_false] at hr
    rcases hr with ⟨rfl | rfl, hr⟩
    · simp [shown] at hr
    · simp
  refine ⟨⟨fs, [], []⟩, new, held, e7, main, by rw [main]; rfl, quiet, ?_⟩
  intro h
  obtain ⟨s, st, new', h1, h2, h3, -⟩ :=
    (h .debug [84] [67] false ⟨fs, [], []⟩ exampleFailing 0 held (by rw [main]) (quiet 0)).1 _ rfl
  have hs : s = ['x', '\n'] := by
    rw [e7] at h1
    have := congrArg Reader.data (Option.some.inj h1)
    exact (Str.bytes_inj this).symm
  rw [hs] at h2
  have := congrArg Prod.fst (hrun.symm.trans h2)
  simp only [Outcome.ok.injEq] at this
  rw [← this] at h3
  cases h3

/-- What `pw_patch` says, whatever goes wrong: with exit status 0 one message, which is true, or that a file could not be
created; with exit status 1 one error; nothing when it panics.  There is no other exit status. -/
theorem C93_reports (p : Profile) (temp patch : Path) (rev : Bool) (w : World) :
    let ended := ((pwPatchL p temp patch rev).run w).1
    let w' := ((pwPatchL p temp patch rev).run w).2.1
    let log := ((pwPatchL p temp patch rev).run w).2.2
    (ended = .exited 0 → ∃ d m, HoldsDiff w.fs patch d ∧
      ((own log = [⟨.pwPatch, .info, m⟩] ∧ TrueReport p rev d w.fs w'.fs m) ∨
       (own log = [⟨.pwPatch, .error, m⟩] ∧ CreationFailed rev d m))) ∧
    (∀ n, ended = .exited n → n = 0 ∨ (n = 1 ∧ ∃ m, own log = [⟨.pwPatch, .error, m⟩]) ∨ (n = 101 ∧ own log = [])) := by
  refine LS.run_eq (Q := fun ended w' log => (ended = .exited 0 → ∃ d m, HoldsDiff w.fs patch d ∧
      ((own log = [⟨.pwPatch, .info, m⟩] ∧ TrueReport p rev d w.fs w'.fs m) ∨
       (own log = [⟨.pwPatch, .error, m⟩] ∧ CreationFailed rev d m))) ∧
    (∀ n, ended = .exited n → n = 0 ∨ (n = 1 ∧ ∃ m, own log = [⟨.pwPatch, .error, m⟩]) ∨ (n = 101 ∧ own log = [])))
    (LS.Sat.mono (pwPatchL_reported p temp patch rev w) ?_)
  intro r w' log h
  cases r with
  | ok u =>
    refine ⟨fun _ => ?_, fun n hn => .inl (Ended.exited.inj hn).symm⟩
    obtain ⟨m, ⟨h1, d, h2, h3⟩ | ⟨h1, d, h2, h3⟩⟩ := h
    · exact ⟨d, m, h2, .inl ⟨h1, h3⟩⟩
    · exact ⟨d, m, h2, .inr ⟨h1, h3⟩⟩
  | error e =>
    cases e with
    | exited n =>
      constructor
      · intro hn
        cases hn
        rcases h with ⟨h, -⟩ | ⟨h, -⟩ <;> cases h
      · intro n' hn
        cases hn
        exact .inr h
    | killed => exact ⟨(by intro h; cases h), (by intro n h; cases h)⟩
    | diverged => exact ⟨(by intro h; cases h), (by intro n h; cases h)⟩

/-- What is shown when the exit status is not 0: exactly one message, an error, whatever the verbosity; only a panic (exit
status 101) is not reported in this way. -/
theorem C93_failure (p : Profile) (temp patch : Path) (rev : Bool) (w : World) (verbosity : Nat) (n : Nat) (hn : n ≠ 0)
    (h : ((pwPatchL p temp patch rev).run w).1 = .exited n) :
    (n = 1 ∧ ∃ m, patchShows verbosity ((pwPatchL p temp patch rev).run w).2.2 = [⟨.pwPatch, .error, m⟩]) ∨
    (n = 101 ∧ patchShows verbosity ((pwPatchL p temp patch rev).run w).2.2 = []) := by
  have hr := (C93_reports p temp patch rev w).2
  rcases hr n h with h0 | ⟨h1, m, hm⟩ | ⟨h1, hm⟩
  · exact absurd h0 hn
  · exact .inl ⟨h1, m, by rw [patchShows_own, hm]; rfl⟩
  · exact .inr ⟨h1, by rw [patchShows_own, hm]; rfl⟩

/-- What `-v` does: given once, nothing, because the programs themselves log no warnings and those of the library are not
shown; given twice or more often, every message of the program itself is shown, and still none of the library. -/
theorem C93_verbosity (p : Profile) (temp patch : Path) (rev : Bool) (w : World) (n : Nat)
    (h : ((pwPatchL p temp patch rev).run w).1 = .exited n) :
    let log := ((pwPatchL p temp patch rev).run w).2.2
    patchShows 1 log = patchShows 0 log ∧ ∀ verbosity, 2 ≤ verbosity → patchShows verbosity log = own log := by
  have key : ∀ log : List Record, (∃ m, own log = [⟨.pwPatch, .info, m⟩]) ∨ (∃ m, own log = [⟨.pwPatch, .error, m⟩]) ∨ own log = [] →
      patchShows 1 log = patchShows 0 log ∧ ∀ verbosity, 2 ≤ verbosity → patchShows verbosity log = own log := by
    intro log hl
    simp only [patchShows_own]
    rcases hl with ⟨m, hm⟩ | ⟨m, hm⟩ | hm <;> rw [hm]
    · exact ⟨rfl, fun v hv => by simp [shown, hv]⟩
    · exact ⟨rfl, fun v _ => by simp [shown]⟩
    · exact ⟨rfl, fun _ _ => rfl⟩
  apply key
  obtain ⟨h1, h2⟩ := C93_reports p temp patch rev w
  rcases h2 n h with rfl | ⟨-, m, hm⟩ | ⟨-, hm⟩
  · obtain ⟨d, m, -, ⟨hm, -⟩ | ⟨hm, -⟩⟩ := h1 h
    · exact .inl ⟨m, hm⟩
    · exact .inr (.inl ⟨m, hm⟩)
  · exact .inr (.inl ⟨m, hm⟩)
  · exact .inr (.inr hm)

/-- What holds, whatever goes wrong: with exit status 0 and no error shown the target of a change was replaced by the
complete output of `apply_into`, the file to be created has the recorded content (and did not exist before), and a file to
be removed is gone.  What is missing is that every clump was applied. -/
theorem C93_partial (p : Profile) (temp patch : Path) (rev : Bool) (w : World) (d : Diff) (verbosity : Nat)
    (hp : HoldsDiff w.fs patch d) (h0 : ((pwPatchL p temp patch rev).run w).1 = .exited 0)
    (hs : ∀ r ∈ patchShows verbosity ((pwPatchL p temp patch rev).run w).2.2, r.level ≠ .error) :
    let w' := ((pwPatchL p temp patch rev).run w).2.1
    (∀ target, d.changed = some target → ∃ old new, w.fs.contentAt target = some ⟨old, false⟩ ∧
      PatchedContent p rev d old new ∧ w'.fs.node (w.fs.entry target) = some (.file new)) ∧
    (∀ path content, d.creates rev = some (path, content) → w.fs.node (w.fs.entry path) = none ∧
      w'.fs.node (w.fs.entry path) = some (.file content)) ∧
    (∀ path, d.deletes rev = some path → w'.fs.node (w.fs.entry path) = none) := by
  have hr := (C93_reports p temp patch rev w).1
  obtain ⟨e, m, he, h⟩ := hr h0
  obtain rfl := hp.unique he
  rcases h with ⟨ho, ht⟩ | ⟨ho, -⟩
  · have hcr : ∀ {x}, d.creates rev = some x → d.changed = none := by
      intro x hx
      cases d <;> first | rfl | cases hx
    have hdl : ∀ {x}, d.deletes rev = some x → d.changed = none ∧ d.creates rev = none := by
      intro x hx
      cases d <;> cases rev <;> first | exact ⟨rfl, rfl⟩ | cases hx
    cases m with
    | statistics st =>
      obtain ⟨t, s, new, rfl, h1, h2, h3⟩ := ht
      refine ⟨?_, (by intro path content h; cases h), (by intro path h; cases h)⟩
      intro target h
      cases h
      exact ⟨_, new, h1, ⟨s, st, rfl, h2⟩, h3⟩
    | noStatistics =>
      obtain ⟨t, old, new, rfl, h1, h2, h3⟩ := ht
      refine ⟨?_, (by intro path content h; cases h), (by intro path h; cases h)⟩
      intro target h
      cases h
      exact ⟨_, new, h1, h2, h3⟩
    | created path =>
      obtain ⟨content, h1, h2, h3⟩ := ht
      refine ⟨?_, ?_, ?_⟩
      · intro target h
        rw [hcr h1] at h
        cases h
      · intro path' content' h
        rw [h1] at h
        cases h
        exact ⟨h2, h3⟩
      · intro path' h
        rw [(hdl h).2] at h1
        cases h1
    | deleted path =>
      obtain ⟨h1, h2⟩ := ht
      refine ⟨?_, ?_, ?_⟩
      · intro target h
        rw [(hdl h1).1] at h
        cases h
      · intro path' content' h
        rw [(hdl h1).2] at h
        cases h
      · intro path' h
        rw [h1] at h
        cases h
        exact h2
    | _ => exact ht.elim
  · exfalso
    refine hs ⟨.pwPatch, .error, m⟩ ?_ rfl
    rw [patchShows_own, ho]
    exact List.mem_singleton.2 rfl

/-- What holds with `-vv`: with exit status 0 exactly one message is shown, and if this is neither an error nor statistics
with a failed clump, the change was made. -/
theorem C93_verbose_partial (p : Profile) (temp patch : Path) (rev : Bool) (w : World) (d : Diff) (verbosity : Nat)
    (hv : 2 ≤ verbosity) (hp : HoldsDiff w.fs patch d) (h0 : ((pwPatchL p temp patch rev).run w).1 = .exited 0) :
    ∃ level m, patchShows verbosity ((pwPatchL p temp patch rev).run w).2.2 = [⟨.pwPatch, level, m⟩] ∧
      (level ≠ .error → (∀ st, m = .statistics st → st.failed = 0) →
        ChangeMade p rev d w.fs ((pwPatchL p temp patch rev).run w).2.1.fs) := by
  have hr := (C93_reports p temp patch rev w).1
  obtain ⟨e, m, he, h⟩ := hr h0
  obtain rfl := hp.unique he
  rcases h with ⟨ho, ht⟩ | ⟨ho, -⟩
  · refine ⟨.info, m, by rw [patchShows_own, ho]; simp [shown, hv], fun _ hst => ?_⟩
    have hpart := C93_partial p temp patch rev w d 0 hp h0 (by
      intro r hr
      rw [patchShows_own, ho] at hr
      simp [shown] at hr)
    refine ⟨?_, fun path content h => (hpart.2.1 path content h).2, hpart.2.2⟩
    rintro t rfl
    cases m with
    | statistics st =>
      obtain ⟨t', s, new, h, h1, h2, h3⟩ := ht
      cases h
      exact ⟨s, st, new, h1, h2, hst st rfl, h3⟩
    | noStatistics =>
      obtain ⟨t', s, new, h, -⟩ := ht
      cases h
    | created path =>
      obtain ⟨content, h, -⟩ := ht
      cases h
    | deleted path => cases ht.1
    | _ => exact ht.elim
  · exact ⟨.error, m, by rw [patchShows_own, ho]; rfl, fun h => absurd rfl h⟩

/-- `pw_diff` never fails silently: with an exit status other than 0 exactly one error is shown, whatever the verbosity, and
the status tells which; with exit status 0 nothing is shown. -/
theorem C93_diff (p : Profile) (before after : Path) (context : Nat) (w : World) (verbosity : Nat) :
    let (ended, _, log) := (pwDiffL p before after context).run w
    (ended = .exited 0 ∧ log = []) ∨ (ended = .killed ∧ log = []) ∨
    (ended = .exited 1 ∧ log.filter (shown .pwDiff verbosity) = [⟨.pwDiff, .error, .errorNoDiff⟩]) ∨
    (ended = .exited 5 ∧ log.filter (shown .pwDiff verbosity) = [⟨.pwDiff, .error, .errorWritingDiff⟩]) := by
  refine LS.run_eq (Q := fun ended _ log => (ended = .exited 0 ∧ log = []) ∨ (ended = .killed ∧ log = []) ∨
    (ended = .exited 1 ∧ log.filter (shown .pwDiff verbosity) = [⟨.pwDiff, .error, .errorNoDiff⟩]) ∨
    (ended = .exited 5 ∧ log.filter (shown .pwDiff verbosity) = [⟨.pwDiff, .error, .errorWritingDiff⟩]))
    (LS.Sat.mono (pwDiffL_reported p before after context w) ?_)
  intro r w' log h
  cases r with
  | ok u => exact .inl ⟨rfl, h⟩
  | error e =>
    cases e with
    | exited n =>
      rcases h with ⟨rfl, rfl⟩ | ⟨rfl, rfl⟩
      · exact .inr (.inr (.inl ⟨rfl, rfl⟩))
      · exact .inr (.inr (.inr ⟨rfl, rfl⟩))
    | killed => exact .inr (.inl ⟨rfl, h⟩)
    | diverged => exact h.elim

/-- A file to be patched that does not exist: exit status 1 and one message. -/
example : (pwPatchL .debug [84] [67] false).run ⟨FS.ofFiles [([65], [1])], [], []⟩ =
    (.exited 1, ⟨FS.ofFiles [([65], [1])], [], []⟩, [⟨.pwPatch, .error, .errorOpening [67]⟩]) := rfl
/-- Two files that do not exist. -/
example : ((pwDiffL .debug [66] [67] 3).run ⟨FS.ofFiles [([65], [1])], [], []⟩).2.2 = [⟨.pwDiff, .error, .errorNoDiff⟩] := by
  decide +kernel

/-! ## C94 -/

section text

variable {T C : Type} [TextClump C T] [DecidableEq T] [Item T]

/-- Applying a text patch to a writer, whatever the clumps and whenever the writer fails, logs messages about the clumps 1,
2, … in order, each at the level that belongs to its kind.  If it succeeds there is one for every clump, and the statistics are
the numbers of messages of the kinds; in particular the number of failed clumps is the number of errors, and that of clean
ones the number of messages that are not even warnings.  And it writes what is written without logging. -/
theorem C94_apply (p : Profile) (cs : List C) (l : List T) (rev : Bool) (w : Writer) :
    let (o, w', log) := applyIntoL p cs l rev (w, [])
    (o, w') = applyInto p cs l rev w ∧
    (∀ i (h : i < log.length), (log[i]'h).message.clump = some (i + 1)) ∧ log.length ≤ cs.length ∧
    (∀ r ∈ log, r.crate = .pwDiffLib ∧ ∃ k, r.message.kind = some k ∧ r.level = k.level) ∧
    ∀ st, o = .ok st → log.length = cs.length ∧
      st.clean = countKind log .clean ∧ st.fuzzy = countKind log .fuzzy ∧ st.alreadyApplied = countKind log .already ∧
      st.alreadyAppliedFuzzy = countKind log .alreadyFuzzy ∧ st.failed = countKind log .failed ∧
      st.failed = (log.filter fun r => r.level = .error).length ∧ st.clean = (log.filter fun r => r.level = .info).length := by
  obtain ⟨h1, h2⟩ := (applyIntoL_erases p cs l rev).same w []
  obtain ⟨ex, h3, h4, h5⟩ := (applyIntoL_logs p cs l rev).added (w, [])
  have hlevel : ∀ k, (k = .failed ∨ k = .clean) → (∀ r ∈ ex, Proper r) →
      countKind ex k = (ex.filter fun r => r.level = k.level).length := by
    intro k hk hp
    unfold countKind
    congr 1
    apply List.filter_congr
    intro r hr
    obtain ⟨-, k', h1, h2⟩ := hp r hr
    rw [h1, h2]
    rcases hk with rfl | rfl <;> cases k' <;> decide
  have e : applyIntoL p cs l rev (w, []) = ((applyIntoL p cs l rev (w, [])).1, (applyIntoL p cs l rev (w, [])).2.1, ex) :=
    Prod.ext rfl (Prod.ext rfl (by rw [h3]; rfl))
  rw [e]
  refine ⟨Prod.ext h1 h2, ?_⟩
  by_cases h : ∃ a, (applyIntoL p cs l rev (w, [])).1 = .ok a
  · obtain ⟨a, h⟩ := h
    obtain ⟨g1, g2, g3, g4⟩ := h4 a h
    refine ⟨fun i hi => by rw [g1 i hi, Nat.zero_add], by omega, g2, ?_⟩
    intro st hst
    rw [h] at hst
    cases hst
    have hz : ∀ n : Nat, 0 + n = n := Nat.zero_add
    refine ⟨g3, ?_, ?_, ?_, ?_, ?_, ?_, ?_⟩
    · rw [g4.clean, hz]
    · rw [g4.fuzzy, hz]
    · rw [g4.already, hz]
    · rw [g4.alreadyFuzzy, hz]
    · rw [g4.failed, hz]
    · rw [g4.failed, hz, hlevel .failed (.inl rfl) g2]
      rfl
    · rw [g4.clean, hz, hlevel .clean (.inr rfl) g2]
      rfl
  · obtain ⟨g1, g2, g3⟩ := h5 fun a ha => h ⟨a, ha⟩
    exact ⟨fun i hi => by rw [g1 i hi, Nat.zero_add], g3, g2, fun st hst => absurd ⟨st, hst⟩ h⟩

omit [Item T] in
/-- Asking whether a text patch is already applied logs one message for every clump up to the first that is not, and this
is the only error; the answer is the one given without logging. -/
theorem C94_already (p : Profile) (cs : List C) (l : List T) (rev : Bool) (answer : Bool)
    (h : isAlreadyApplied p cs l rev = .ok answer) :
    (isAlreadyAppliedL p cs l rev).run.1 = .ok answer ∧ (isAlreadyAppliedL p cs l rev).run.2.1 = [] ∧
    Answered 0 cs.length answer (isAlreadyAppliedL p cs l rev).run.2.2 := by
  obtain ⟨h1, h2⟩ := (isAlreadyAppliedL_erases p cs l rev).same ⟨[], none⟩ []
  rw [h] at h1 h2
  obtain ⟨ex, h3, h4, -⟩ := (isAlreadyAppliedLoopL_logs p l rev (ConsumableSeq.new l) 0 cs 0).added (⟨[], none⟩, [])
  refine ⟨h1, ?_, ?_⟩
  · show (isAlreadyAppliedL p cs l rev (⟨[], none⟩, [])).2.1.out = []
    rw [h2]
    rfl
  · have : (isAlreadyAppliedL p cs l rev).run.2.2 = ex := h3
    rw [this]
    exact h4 answer h1

end text

/-- Asking whether a byte patch is already applied. -/
theorem C94_byteAlready (p : Profile) (cs : List (DiffClump UInt8)) (l : List UInt8) (rev : Bool) (answer : Bool)
    (h : byteAlreadyApplied p l rev cs = .ok answer) :
    (byteAlreadyAppliedL p l rev 0 cs).run.1 = .ok answer ∧ (byteAlreadyAppliedL p l rev 0 cs).run.2.1 = [] ∧
    Answered 0 cs.length answer (byteAlreadyAppliedL p l rev 0 cs).run.2.2 := by
  obtain ⟨h1, h2⟩ := (byteAlreadyAppliedL_erases p l rev 0 cs).same ⟨[], none⟩ []
  rw [h] at h1 h2
  obtain ⟨ex, h3, h4, -⟩ := (byteAlreadyAppliedL_logs p l rev 0 cs).added (⟨[], none⟩, [])
  refine ⟨h1, ?_, ?_⟩
  · show (byteAlreadyAppliedL p l rev 0 cs (⟨[], none⟩, [])).2.1.out = []
    rw [h2]
    rfl
  · have : (byteAlreadyAppliedL p l rev 0 cs).run.2.2 = ex := h3
    rw [this]
    exact h4 answer h1

/-- A patch of three clumps, of which the first is displaced by two lines, the second is already applied and the third does
not fit. -/
def exampleThree : List (DiffClump Str) :=
  [⟨(1, 0), ⟨0, [ln 'a', ln 'b']⟩, ⟨0, [ln 'a', ln 'x']⟩⟩,
   ⟨(1, 0), ⟨3, [ln 'd', ln 'e']⟩, ⟨3, [ln 'd', ln 'f']⟩⟩,
   ⟨(0, 0), ⟨6, [ln 'g']⟩, ⟨6, [ln 'h']⟩⟩]

/-- The file it is applied to. -/
def exampleThreeFile : List Str := [ln '1', ln '2', ln 'a', ln 'b', ln 'c', ln 'd', ln 'f', ln 'i']

example : (applyIntoL .debug exampleThree exampleThreeFile false).run.1 =
    .ok { fuzzy := 1, alreadyApplied := 1, failed := 1 } := by decide +kernel
example : (applyIntoL .debug exampleThree exampleThreeFile false).run.2.2 =
    [⟨.pwDiffLib, .warn, .appliesOffset 1 2⟩, ⟨.pwDiffLib, .warn, .already 2⟩, ⟨.pwDiffLib, .error, .notApplied 3⟩] := by
  decide +kernel
example : (isAlreadyAppliedL .debug exampleThree [ln 'a', ln 'x', ln 'c', ln 'd', ln 'f'] false).run =
    (.ok false, [], [⟨.pwDiffLib, .info, .already 1⟩, ⟨.pwDiffLib, .info, .already 2⟩, ⟨.pwDiffLib, .error, .notAlready 3⟩]) := by
  decide +kernel
example : (byteAlreadyAppliedL .debug [1, 2, 3] false 0 [⟨(0, 0), ⟨0, [9]⟩, ⟨0, [1]⟩⟩, ⟨(0, 0), ⟨1, [2]⟩, ⟨1, [7]⟩⟩]).run =
    (.ok false, [], [⟨.pwDiffLib, .info, .already 1⟩, ⟨.pwDiffLib, .error, .notAlready 2⟩]) := by decide +kernel

/-! ## C95 -/

theorem weight_swap {T : Type} (cs : List (DiffClump T)) : weight (cs.map DiffClump.swap) = weight cs := by
  induction cs with
  | nil => rfl
  | cons c cs ih =>
    simp only [List.map_cons, weight, ih, DiffClump.swap]
    omega

/-- The messages about the clumps of a text patch are true of the file, in both directions: each says where, displaced by
the sum of the displacements told so far, the lines of the clump stand, reduced as told, and that what was tried before
does not fit.  (`Truthful`; when the patch is applied in reverse, the sides of the clumps are exchanged.) -/
theorem C95_text {T : Type} [DecidableEq T] [Item T] [LawfulItem T] (p : Profile) (l : List T) (cs : List (DiffClump T)) (rev : Bool)
    (hw : ∀ c ∈ cs, c.WellFormed) (hsz : l.length + weight cs < sizeLimit) (w : Writer) :
    Truthful l 0 (if rev then cs.map DiffClump.swap else cs) (applyIntoL p cs l rev (w, [])).2.2 := by
  have main : ∀ cs : List (DiffClump T), (∀ c ∈ cs, c.WellFormed) → l.length + weight cs < sizeLimit →
      Truthful l 0 cs (applyIntoL p cs l false (w, [])).2.2 := by
    intro cs hw hsz
    obtain ⟨ex, h1, h2, h3⟩ := (applyIntoL_truthful p l cs hw hsz).added (w, [])
    rw [h1, List.nil_append]
    by_cases h : ∃ a, (applyIntoL p cs l false (w, [])).1 = .ok a
    · obtain ⟨a, h⟩ := h
      exact h2 a h
    · exact h3 fun a ha => h ⟨a, ha⟩
  cases rev with
  | false => exact main cs hw hsz
  | true =>
    simp only [if_true]
    have := main (cs.map DiffClump.swap) (by
      intro c hc
      obtain ⟨c', hc', rfl⟩ := List.mem_map.1 hc
      exact ⟨(hw c' hc').ctxAfter, (hw c' hc').ctxBefore, (hw c' hc').sizeAfter, (hw c' hc').sizeBefore⟩)
      (by rw [weight_swap]; exact hsz)
    rw [applyIntoL_swap] at this
    exact this

/-- The messages about the clumps of a byte patch, whatever the clumps and the writer: message `i` is about clump `i`, and
says whether its old bytes are found in the file, or, when they are not, its new ones, or neither. -/
theorem C95_bytes (p : Profile) (l : List UInt8) (cs : List (DiffClump UInt8)) (rev : Bool) (w : Writer) :
    let (o, w', log) := byteApplyIntoL p cs l rev (w, [])
    (o, w') = byteApplyInto p cs l rev w ∧ log.length ≤ cs.length ∧ (o = .ok () → log.length = cs.length) ∧
    ∀ (i : Nat) r, log[i]? = some r → ∃ c, cs[i]? = some c ∧
      ((FoundIn l (c.beforeSide rev) ∧ r = ⟨.pwDiffLib, .info, .applies (i + 1)⟩) ∨
       (¬ FoundIn l (c.beforeSide rev) ∧ FoundIn l (c.afterSide rev) ∧ r = ⟨.pwDiffLib, .warn, .already (i + 1)⟩) ∨
       (¬ FoundIn l (c.beforeSide rev) ∧ ¬ FoundIn l (c.afterSide rev) ∧ r = ⟨.pwDiffLib, .error, .notApplied (i + 1)⟩)) := by
  obtain ⟨h1, h2⟩ := (byteApplyIntoL_erases p cs l rev).same w []
  obtain ⟨ex, h3, h4, h5⟩ := (byteApplyIntoL_logs p l rev cs).added (w, [])
  have e : byteApplyIntoL p cs l rev (w, []) = ((byteApplyIntoL p cs l rev (w, [])).1, (byteApplyIntoL p cs l rev (w, [])).2.1, ex) :=
    Prod.ext rfl (Prod.ext rfl (by rw [h3]; rfl))
  have conv : ByteTruthful l rev 0 cs ex → ∀ (i : Nat) r, ex[i]? = some r → ∃ c, cs[i]? = some c ∧
      ByteTells l (c.beforeSide rev) (c.afterSide rev) (i + 1) r := by
    intro h i r hi
    have := h i r hi
    rwa [Nat.zero_add] at this
  rw [e]
  refine ⟨Prod.ext h1 h2, ?_⟩
  by_cases h : ∃ a, (byteApplyIntoL p cs l rev (w, [])).1 = .ok a
  · obtain ⟨a, h⟩ := h
    obtain ⟨g1, g2⟩ := h4 a h
    exact ⟨Nat.le_of_eq g2, fun _ => g2, conv g1⟩
  · obtain ⟨g1, g2⟩ := h5 fun a ha => h ⟨a, ha⟩
    exact ⟨g2, fun ho => absurd ⟨(), ho⟩ h, conv g1⟩

/-- The clumps of the example satisfy the conditions of `C95_text`. -/
example : (∀ c ∈ exampleThree, c.WellFormed) ∧
    exampleThreeFile.length + weight exampleThree < sizeLimit := by
  constructor
  · intro c hc
    simp only [exampleThree, List.mem_cons, List.not_mem_nil, or_false] at hc
    rcases hc with rfl | rfl | rfl <;> constructor <;> simp [sizeLimit]
  · decide +kernel
example : (byteApplyIntoL .debug [⟨(0, 0), ⟨0, [1]⟩, ⟨0, [5]⟩⟩, ⟨(0, 0), ⟨1, [9]⟩, ⟨1, [2]⟩⟩, ⟨(0, 0), ⟨2, [8]⟩, ⟨2, [7]⟩⟩] [1, 2, 3] false).run.2.2 =
    [⟨.pwDiffLib, .info, .applies 1⟩, ⟨.pwDiffLib, .warn, .already 2⟩, ⟨.pwDiffLib, .error, .notApplied 3⟩] := by decide +kernel

example := C95_text .debug [ln 'c', ln 'a', ln 'd'] [(⟨(0, 0), ⟨0, [ln 'a']⟩, ⟨0, [ln 'b']⟩⟩ : DiffClump Str), ⟨(0, 0), ⟨3, [ln 'x']⟩, ⟨3, [ln 'y']⟩⟩] false
  (by intro c hc
      simp only [List.mem_cons, List.not_mem_nil, or_false] at hc
      rcases hc with rfl | rfl <;> exact ⟨by decide, by decide, by decide, by decide⟩) (by decide +kernel)
example := C94_already .debug [(⟨(0, 0), ⟨0, [ln 'a']⟩, ⟨0, [ln 'b']⟩⟩ : DiffClump Str), ⟨(0, 0), ⟨3, [ln 'x']⟩, ⟨3, [ln 'y']⟩⟩] [ln 'b', ln 'c', ln 'd', ln 'y'] false true (by decide +kernel)

end PwDiff
