import Verif.Proofs.LoggingPrograms
import Verif.Props.Programs
import Verif.Proofs.Recorded

/-! # What the programs log, whatever goes wrong -/

namespace PwDiff

namespace LS

/-- The result, the final state and the final log of a process satisfy `Q`. -/
def Sat {α : Type} (m : LS α) (s : World × List Record) (Q : Except Ended α → World → List Record → Prop) : Prop :=
  Q (m s).1 (m s).2.1 (m s).2.2

variable {α β : Type} {w : World} {log : List Record}

theorem Sat.mono {m : LS α} {s : World × List Record} {Q R : Except Ended α → World → List Record → Prop} (h : m.Sat s Q)
    (hqr : ∀ r w' log', Q r w' log' → R r w' log') : m.Sat s R := hqr _ _ _ h

theorem sat_quiet_bind {m : Sys α} {f : α → LS β} {Q : Except Ended β → World → List Record → Prop}
    (h : m.Sat w fun r w' => match r with
      | .ok a => (f a).Sat (w', log) Q
      | .error e => Q (.error e) w' log) : (LS.quiet m >>= f).Sat (w, log) Q := by
  show Q (LS.bind (LS.quiet m) f (w, log)).1 (LS.bind (LS.quiet m) f (w, log)).2.1 (LS.bind (LS.quiet m) f (w, log)).2.2
  unfold Sys.Sat at h
  unfold LS.bind LS.quiet
  simp only
  cases hm : m w with
  | mk r w' =>
    rw [hm] at h
    cases r with
    | ok a => exact h
    | error e => exact h

theorem sat_quiet {m : Sys α} {Q : Except Ended α → World → List Record → Prop} (h : m.Sat w fun r w' => Q r w' log) :
    (LS.quiet m).Sat (w, log) Q := h

theorem sat_say_bind {crate : Crate} {level : Level} {message : Message} {f : Unit → LS β}
    {Q : Except Ended β → World → List Record → Prop} (h : (f ()).Sat (w, log ++ [⟨crate, level, message⟩]) Q) :
    (LS.say crate level message >>= f).Sat (w, log) Q := h

theorem sat_writeFile_bind {i : Nat} {m : LW α} {f : Outcome α → LS β} {Q : Except Ended β → World → List Record → Prop}
    (h1 : ∀ fl, (f (writing m).run.1).Sat
      ({ w with faults := fl, fs := w.fs.set i (some (.file (writing m).run.2)) }, log ++ (m (⟨[], none⟩, [])).2.2) Q)
    (h2 : ∀ fl n, (f (writing m ⟨[], some n⟩).1).Sat
      ({ w with faults := fl, fs := w.fs.set i (some (.file (writing m ⟨[], some n⟩).2.out)) },
        log ++ (m (⟨[], some n⟩, [])).2.2) Q)
    (h3 : ∀ fl n, Q (.error .killed) { w with faults := fl, fs := w.fs.set i (some (.file ((writing m).run.2.take n))) } log) :
    (LS.writeFile i m >>= f).Sat (w, log) Q := by
  show Q (LS.bind (LS.writeFile i m) f (w, log)).1 (LS.bind (LS.writeFile i m) f (w, log)).2.1
    (LS.bind (LS.writeFile i m) f (w, log)).2.2
  unfold LS.bind LS.writeFile writeLog Sys.writeFile Sys.operation
  obtain ⟨fs, faults, stdout⟩ := w
  cases faults with
  | nil => exact h1 []
  | cons x fl =>
    cases x with
    | none => exact h1 fl
    | fail n => exact h2 fl n
    | kill n =>
      simp only [List.append_nil]
      exact h3 fl n

theorem run_eq {m : LS Unit} {w : World} {Q : Ended → World → List Record → Prop}
    (h : m.Sat (w, []) fun r w' log => match r with
      | .ok _ => Q (.exited 0) w' log
      | .error e => Q e w' log) : Q (m.run w).1 (m.run w).2.1 (m.run w).2.2 := by
  unfold Sat at h
  unfold run
  cases hm : m (w, []) with
  | mk r s =>
    rw [hm] at h
    cases r with
    | ok a => exact h
    | error e => exact h

end LS

/-- The messages of `pw_patch` itself. -/
def own (log : List Record) : List Record := log.filter fun r => r.crate = .pwPatch

theorem own_append (a b : List Record) : own (a ++ b) = own a ++ own b := by simp [own]

theorem own_library {log : List Record} (h : ∀ r ∈ log, r.crate = .pwDiffLib) : own log = [] := by
  unfold own
  rw [List.filter_eq_nil_iff]
  intro r hr
  rw [h r hr]
  decide

/-- What a run of `pw_patch` ends with and says itself: `Said` is what is told of a success, `Failed` of a failure with
exit status 0. -/
def Reported (Said : Message → FS → Prop) (Failed : Message → FS → Prop) (r : Except Ended Unit) (fs' : FS) (log : List Record) : Prop :=
  match r with
  | .ok _ => ∃ m, (own log = [⟨.pwPatch, .info, m⟩] ∧ Said m fs') ∨ (own log = [⟨.pwPatch, .error, m⟩] ∧ Failed m fs')
  | .error (.exited n) => (n = 1 ∧ ∃ m, own log = [⟨.pwPatch, .error, m⟩]) ∨ (n = 101 ∧ own log = [])
  | .error .killed => own log = [] ∨ ∃ m, own log = [⟨.pwPatch, .info, m⟩] ∧ Said m fs'
  | .error .diverged => own log = []

section walk

variable {Said Failed : Message → FS → Prop} {fs' : FS} {log : List Record}

theorem Reported.fatal {message : Message} (h : own log = []) :
    Reported Said Failed (.error (.exited 1)) fs' (log ++ [⟨.pwPatch, .error, message⟩]) :=
  .inl ⟨rfl, message, by rw [own_append, h]; rfl⟩

theorem Reported.done {message : Message} (h : own log = []) (hs : Said message fs') :
    Reported Said Failed (.ok ()) fs' (log ++ [⟨.pwPatch, .info, message⟩]) :=
  ⟨message, .inl ⟨by rw [own_append, h]; rfl, hs⟩⟩

theorem Reported.doneKilled {message : Message} (h : own log = []) (hs : Said message fs') :
    Reported Said Failed (.error .killed) fs' (log ++ [⟨.pwPatch, .info, message⟩]) :=
  .inr ⟨message, by rw [own_append, h]; rfl, hs⟩

end walk

open Sys LS

theorem finishPatchL_reported {β : Type} {temp patchable : Path} {f : β → Message} {o : Outcome β} {Said Failed : Message → FS → Prop}
    {w : World} {log : List Record} (hlog : own log = []) (hne : w.fs.entry temp ≠ w.fs.entry patchable) {out : List UInt8}
    (ht : w.fs.node (w.fs.entry temp) = some (.file out))
    (hs : ∀ b, o = .ok b → ∀ fs' : FS, fs'.node (w.fs.entry patchable) = some (.file out) → Said (f b) fs') :
    (finishPatchL temp patchable f o).Sat (w, log) fun r w' log' => Reported Said Failed r w'.fs log' := by
  cases o with
  | ioErr => exact Reported.fatal (Said := Said) (Failed := Failed) (fs' := w.fs) hlog
  | diverge => exact hlog
  | panic =>
    apply sat_quiet
    apply Sys.Sat.bind
    apply sat_dropTemp
    · intro fl
      exact sat_exit (.inr ⟨rfl, hlog⟩)
    · intro fl
      exact .inl hlog
    · intro fl _
      exact sat_exit (.inr ⟨rfl, hlog⟩)
  | ok b =>
    apply sat_quiet_bind
    apply sat_rename hne (by rw [ht]; simp)
    · intro fl
      exact Reported.fatal (Said := Said) (Failed := Failed) (fs' := w.fs) hlog
    · intro fl
      exact .inl hlog
    · intro fl _
      apply sat_say_bind
      apply sat_quiet
      apply sat_dropTemp
      · intro fl'
        exact Reported.done hlog (hs b rfl _ (by simp [ht, Ne.symm hne]))
      · intro fl'
        exact Reported.doneKilled hlog (hs b rfl _ (by simp [ht, Ne.symm hne]))
      · intro fl' _
        exact Reported.done hlog (hs b rfl _ (by simp [ht, Ne.symm hne]))

/-- Only the library logs. -/
def LW.Library {α : Type} (m : LW α) : Prop := ∀ w, ∀ r ∈ (m (w, [])).2.2, r.crate = .pwDiffLib

theorem patchContentL_reported {β : Type} {temp patchable : Path} {f : β → Message} {m : LW β} {n : WM β}
    {Said Failed : Message → FS → Prop} {w : World} {log : List Record} (hlog : own log = []) (he : LW.Erases m n) (hn : WM.Norm n)
    (hm : m.Library) (hex : w.fs.node (w.fs.entry patchable) ≠ none)
    (hs : ∀ b out, n.run = (.ok b, out) → ∀ fs' : FS, fs'.node (w.fs.entry patchable) = some (.file out) → Said (f b) fs') :
    (patchContentL temp patchable f m).Sat (w, log) fun r w' log' => Reported Said Failed r w'.fs log' := by
  apply sat_quiet_bind
  apply sat_createNew
  · intro fl
    exact Reported.fatal (Said := Said) (Failed := Failed) (fs' := w.fs) hlog
  · intro fl
    exact .inl hlog
  · intro fl hfree
    have hst : w.fs.entry temp ≠ w.fs.entry patchable := by
      intro e
      rw [e] at hfree
      exact hex hfree
    apply sat_quiet_bind
    apply sat_create (c := []) (by simp)
    · intro fl2
      exact Reported.fatal (Said := Said) (Failed := Failed) (fs' := w.fs) hlog
    · intro fl2
      exact .inl hlog
    · intro fl2
      apply sat_writeFile_bind
      · intro fl3
        rw [he.writing]
        refine finishPatchL_reported (by rw [own_append, hlog, own_library (hm _)]; rfl) hst (out := n.run.2) (by simp) ?_
        intro b hb
        exact hs b n.run.2 (Prod.ext hb rfl)
      · intro fl3 k
        rw [he.writing]
        refine finishPatchL_reported (by rw [own_append, hlog, own_library (hm _)]; rfl) hst
          (out := (n ⟨[], some k⟩).2.out) (by simp) ?_
        intro b hb
        exact hs b _ (norm_limited hn k hb)
      · intro fl3 k
        exact .inl hlog

theorem patchFileL_reported {α β : Type} {temp patchable : Path} {read : Reader → Outcome α} {f : β → Message} {m : α → LW β}
    {n : α → WM β} {Said Failed : Message → FS → Prop} {w : World} {log : List Record} (hlog : own log = [])
    (he : ∀ a, LW.Erases (m a) (n a)) (hn : ∀ a, WM.Norm (n a)) (hm : ∀ a, (m a).Library)
    (hread : ∀ r a, read r = .ok a → r.fails = false) (hend : ∀ r, read r ≠ .panic)
    (hs : ∀ rd a b out, w.fs.contentAt patchable = some rd → read rd = .ok a → (n a).run = (.ok b, out) →
      ∀ fs' : FS, fs'.node (w.fs.entry patchable) = some (.file out) → Said (f b) fs') :
    (patchFileL temp patchable read f m).Sat (w, log) fun r w' log' => Reported Said Failed r w'.fs log' := by
  have rest : ∀ (rd : Reader) fl, (rd.fails = false → w.fs.contentAt patchable = some rd) →
      LS.Sat (do
        match ← LS.quiet (ofOutcome (read rd)) with
        | none => LS.fatal .pwPatch (.errorReading patchable) 1
        | some content => patchContentL temp patchable f (m content))
        (({ w with faults := fl } : World), log) fun r w' log' => Reported Said Failed r w'.fs log' := by
    intro rd fl ho
    apply sat_quiet_bind
    cases hr : read rd with
    | ioErr => exact Reported.fatal (Said := Said) (Failed := Failed) (fs' := w.fs) hlog
    | panic => exact absurd hr (hend rd)
    | diverge => exact hlog
    | ok a =>
      have hc := ho (hread rd a hr)
      have hex : w.fs.node (w.fs.entry patchable) ≠ none := by
        have := FS.entry_some_of_content hc
        intro e
        rw [e] at this
        simp at this
      exact patchContentL_reported (w := { w with faults := fl }) hlog (he a) (hn a) (hm a) hex
        fun b out hb => hs rd a b out hc hr hb
  apply sat_quiet_bind
  apply sat_openFile
  · intro fl _
    exact Reported.fatal (Said := Said) (Failed := Failed) (fs' := w.fs) hlog
  · intro fl
    exact .inl hlog
  · intro fl r hr
    exact rest r fl (by simp [hr])
  · intro fl r hr
    exact rest r fl (fun _ => hr)

theorem addFileL_reported {path : Path} {content : WM Unit} {out : List UInt8} (hcont : content = WM.emit out (.ok ()))
    {Said Failed : Message → FS → Prop} {w : World}
    {log : List Record} (hlog : own log = [])
    (hs : w.fs.node (w.fs.entry path) = none → ∀ fs' : FS, fs'.node (w.fs.entry path) = some (.file out) → Said (.created path) fs')
    (hf : ∀ fs', Failed (.errorCreating path) fs') :
    (addFileL path content).Sat (w, log) fun r w' log' => Reported Said Failed r w'.fs log' := by
  subst hcont
  have failed : ∀ (fs' : FS), Reported Said Failed (.ok ()) fs' (log ++ [⟨.pwPatch, .error, .errorCreating path⟩]) :=
    fun fs' => ⟨_, .inr ⟨by rw [own_append, hlog]; rfl, hf fs'⟩⟩
  apply sat_quiet_bind
  apply sat_createNew
  · intro fl
    exact failed _
  · intro fl
    exact .inl hlog
  · intro fl hfree
    apply sat_quiet_bind
    apply sat_writeFile
    · intro fl2
      rw [WM.run_emit]
      exact Reported.done hlog (hs hfree _ (by simp [LS.say]))
    · intro fl2 n
      rw [WM.emit_apply]
      simp only
      by_cases hfit : out.length ≤ n
      · rw [if_pos hfit]
        exact Reported.done hlog (hs hfree _ (by simp [LS.say]))
      · rw [if_neg hfit]
        exact failed _
    · intro fl2 n
      exact .inl hlog

theorem deleteFileL_reported {path : Path} {Said Failed : Message → FS → Prop} {w : World} {log : List Record} (hlog : own log = [])
    (hs : ∀ fs' : FS, fs'.node (w.fs.entry path) = none → Said (.deleted path) fs') :
    (deleteFileL path).Sat (w, log) fun r w' log' => Reported Said Failed r w'.fs log' := by
  apply sat_quiet_bind
  unfold removeFile
  apply sat_operation
  · intro fl
    simp only
    split
    · exact Reported.fatal (Said := Said) (Failed := Failed) (fs' := w.fs) hlog
    · exact Reported.done hlog (hs _ (by simp [LS.say]))
  · intro fl n
    exact Reported.fatal (Said := Said) (Failed := Failed) (fs' := w.fs) hlog
  · intro fl n
    exact .inl hlog

/-- What a message of success of `pw_patch` says: how the diff `d` was applied to the files `fs`, leaving `fs'`. -/
def TrueReport (p : Profile) (rev : Bool) (d : Diff) (fs fs' : FS) : Message → Prop
  | .statistics st => ∃ t s new, d = .textChange t ∧ fs.contentAt t.beforePath = some ⟨Str.bytes s, false⟩ ∧
      (applyInto p t.clumps (splitInclusive s) rev).run = (.ok st, new) ∧ fs'.node (fs.entry t.beforePath) = some (.file new)
  | .noStatistics => ∃ t old new, d = .byteChange t ∧ fs.contentAt t.beforePath = some ⟨old, false⟩ ∧
      (byteApplyInto p t.clumps old rev).run = (.ok (), new) ∧ fs'.node (fs.entry t.beforePath) = some (.file new)
  | .created path => ∃ content, d.creates rev = some (path, content) ∧ fs.node (fs.entry path) = none ∧
      fs'.node (fs.entry path) = some (.file content)
  | .deleted path => d.deletes rev = some path ∧ fs'.node (fs.entry path) = none
  | _ => False

theorem library_applyIntoL {T C : Type} [TextClump C T] [DecidableEq T] [Item T] (p : Profile) (cs : List C) (l : List T) (rev : Bool) :
    (applyIntoL p cs l rev).Library := by
  intro w r hr
  obtain ⟨ex, h1, h2, h3⟩ := (applyIntoL_logs p cs l rev).added (w, [])
  rw [h1, List.nil_append] at hr
  by_cases h : ∃ a, (applyIntoL p cs l rev (w, [])).1 = .ok a
  · obtain ⟨a, h⟩ := h
    exact ((h2 a h).2.1 r hr).1
  · exact ((h3 fun a ha => h ⟨a, ha⟩).2.1 r hr).1

theorem ByteTruthful.library {l : List UInt8} {rev : Bool} {n : Nat} {cs : List (DiffClump UInt8)} {log : List Record}
    (h : ByteTruthful l rev n cs log) : ∀ r ∈ log, r.crate = .pwDiffLib := by
  intro r hr
  obtain ⟨i, hi⟩ := List.mem_iff_getElem?.1 hr
  obtain ⟨c, -, hc⟩ := h i r hi
  rcases hc with ⟨-, rfl⟩ | ⟨-, -, rfl⟩ | ⟨-, -, rfl⟩ <;> rfl

theorem library_byteApplyIntoL (p : Profile) (cs : List (DiffClump UInt8)) (l : List UInt8) (rev : Bool) :
    (byteApplyIntoL p cs l rev).Library := by
  intro w r hr
  obtain ⟨ex, h1, h2, h3⟩ := (byteApplyIntoL_logs p l rev cs).added (w, [])
  rw [h1, List.nil_append] at hr
  by_cases h : ∃ a, (byteApplyIntoL p cs l rev (w, [])).1 = .ok a
  · obtain ⟨a, h⟩ := h
    exact (h2 a h).1.library r hr
  · exact (h3 fun a ha => h ⟨a, ha⟩).1.library r hr

/-- The message that a file could not be created. -/
def CreationFailed (rev : Bool) (d : Diff) (m : Message) : Prop :=
  ∃ path content, d.creates rev = some (path, content) ∧ m = .errorCreating path

theorem writeInto_lines (e : PathAndLines) : e.writeInto = WM.emit (e.lines.flatMap Str.bytes) (.ok ()) := by
  unfold PathAndLines.writeInto
  rw [writeStrs_eq, WM.writeAll_eq_emit]

theorem writeInto_bytes (e : PathAndBytes) : e.writeInto = WM.emit e.bytes (.ok ()) := by
  unfold PathAndBytes.writeInto
  rw [WM.writeAll_eq_emit]

theorem applyDiffL_reported (p : Profile) (temp : Path) (rev : Bool) (d : Diff) (w : World) :
    (applyDiffL p temp rev d).Sat (w, []) fun r w' log =>
      Reported (fun m fs' => TrueReport p rev d w.fs fs' m) (fun m _ => CreationFailed rev d m) r w'.fs log := by
  have add : ∀ path content out, content = WM.emit out (.ok ()) → d.creates rev = some (path, out) →
      (addFileL path content).Sat (w, []) fun r w' log =>
        Reported (fun m fs' => TrueReport p rev d w.fs fs' m) (fun m _ => CreationFailed rev d m) r w'.fs log := by
    intro path content out h hd
    exact addFileL_reported h rfl (fun h1 fs' h2 => ⟨out, hd, h1, h2⟩) (fun fs' => ⟨path, out, hd, rfl⟩)
  have del : ∀ path, d.deletes rev = some path →
      (deleteFileL path).Sat (w, []) fun r w' log =>
        Reported (fun m fs' => TrueReport p rev d w.fs fs' m) (fun m _ => CreationFailed rev d m) r w'.fs log := by
    intro path hd
    exact deleteFileL_reported rfl (fun fs' h => ⟨hd, h⟩)
  cases d with
  | textChange t =>
    refine patchFileL_reported rfl (fun ls => applyIntoL_erases p t.clumps ls rev) (fun ls => norm_applyInto p t.clumps ls rev)
      (fun ls => library_applyIntoL p t.clumps ls rev) (fun r a h => ((readText_eq_ok_iff r a).1 h).1) ?_ ?_
    · intro r h
      rcases readText_total r with e | ⟨_, e⟩ <;> rw [e] at h <;> cases h
    · intro rd a b out h1 h2 h3 fs' h4
      obtain ⟨hf, s, hs, rfl⟩ := (readText_eq_ok_iff rd a).1 h2
      refine ⟨t, s, out, rfl, ?_, h3, h4⟩
      rw [h1, hs]
      obtain ⟨data, fails⟩ := rd
      obtain rfl : fails = false := hf
      rfl
  | byteChange t =>
    refine patchFileL_reported rfl (fun ls => byteApplyIntoL_erases p t.clumps ls rev)
      (fun ls => norm_byteApplyInto p t.clumps ls rev)
      (fun ls => library_byteApplyIntoL p t.clumps ls rev) (fun r a h => by rw [readBytes_content h]) ?_ ?_
    · intro r h
      rcases readBytes_total r with e | ⟨_, e⟩ <;> rw [e] at h <;> cases h
    · intro rd a b out h1 h2 h3 fs' h4
      exact ⟨t, a, out, rfl, by rw [h1, readBytes_content h2], h3, h4⟩
  | textAdd e =>
    cases rev with
    | false => exact add _ _ _ (writeInto_lines e) rfl
    | true => exact del _ rfl
  | textRemove e =>
    cases rev with
    | true => exact add _ _ _ (writeInto_lines e) rfl
    | false => exact del _ rfl
  | byteAdd e =>
    cases rev with
    | false => exact add _ _ _ (writeInto_bytes e) rfl
    | true => exact del _ rfl
  | byteRemove e =>
    cases rev with
    | true => exact add _ _ _ (writeInto_bytes e) rfl
    | false => exact del _ rfl

theorem pwPatchL_reported (p : Profile) (temp patch : Path) (rev : Bool) (w : World) :
    (pwPatchL p temp patch rev).Sat (w, []) fun r w' log =>
      Reported (fun m fs' => ∃ d, HoldsDiff w.fs patch d ∧ TrueReport p rev d w.fs fs' m)
        (fun m _ => ∃ d, HoldsDiff w.fs patch d ∧ CreationFailed rev d m) r w'.fs log := by
  apply sat_quiet_bind
  apply sat_openFile
  · intro fl _
    exact .inl ⟨rfl, _, rfl⟩
  · intro fl
    exact .inl rfl
  · intro fl r hr
    obtain ⟨data, fails⟩ := r
    obtain rfl : fails = true := hr
    exact .inl ⟨rfl, _, rfl⟩
  · intro fl r hr
    apply sat_quiet_bind
    by_cases hd : ∃ d, Diff.fromReader r = .ok d
    · obtain ⟨d, hd⟩ := hd
      rw [hd]
      show (applyDiffL p temp rev d).Sat ({ w with faults := fl }, []) fun r w' log =>
        Reported (fun m fs' => ∃ d, HoldsDiff w.fs patch d ∧ TrueReport p rev d w.fs fs' m)
          (fun m _ => ∃ d, HoldsDiff w.fs patch d ∧ CreationFailed rev d m) r w'.fs log
      refine LS.Sat.mono (applyDiffL_reported p temp rev d { w with faults := fl }) ?_
      intro r' w' log h
      have held : HoldsDiff w.fs patch d := ⟨r, hr, hd⟩
      cases r' with
      | ok u =>
        obtain ⟨m, h | h⟩ := h
        · exact ⟨m, .inl ⟨h.1, d, held, h.2⟩⟩
        · exact ⟨m, .inr ⟨h.1, d, held, h.2⟩⟩
      | error e =>
        cases e with
        | exited n => exact h
        | diverged => exact h
        | killed =>
          rcases h with h | ⟨m, h1, h2⟩
          · exact .inl h
          · exact .inr ⟨m, h1, d, held, h2⟩
    · rw [fromReader_total r (fun d h => hd ⟨d, h⟩)]
      exact .inl ⟨rfl, _, rfl⟩

/-- What `pw_diff` logs: nothing, or one error before it exits with status 1 or 5. -/
def DiffReported (r : Except Ended Unit) (log : List Record) : Prop :=
  match r with
  | .ok _ => log = []
  | .error (.exited n) => (n = 1 ∧ log = [⟨.pwDiff, .error, .errorNoDiff⟩]) ∨ (n = 5 ∧ log = [⟨.pwDiff, .error, .errorWritingDiff⟩])
  | .error .killed => log = []
  | .error .diverged => False

theorem pwDiffL_reported (p : Profile) (before after : Path) (context : Nat) (w : World) :
    (pwDiffL p before after context).Sat (w, []) fun r _ log => DiffReported r log := by
  apply sat_quiet_bind
  refine Sys.Sat.mono (quiet_diffNew p before after context w) ?_
  rintro r w1 ⟨-, -, h3⟩
  rcases h3 with ⟨o, rfl⟩ | rfl
  · cases o with
    | none => exact .inl ⟨rfl, rfl⟩
    | some d =>
      have hd : d.toWriter.run.1 = .ok () ∨ d.toWriter.run.1 = .ioErr := by
        obtain ⟨out, r, e1, e2⟩ := ends_toWriter d
        rw [e1, WM.run_emit]
        rcases e2 with ⟨-, rfl⟩ | ⟨-, rfl⟩
        · exact .inl rfl
        · exact .inr rfl
      have rest : ∀ (r : Outcome Unit) (w' : World), r = .ok () ∨ r = .ioErr →
          LS.Sat (do
            match ← LS.quiet (ofOutcome r) with
            | none => LS.fatal .pwDiff .errorWritingDiff 5
            | some _ => return ()) (w', []) fun r _ log => DiffReported r log := by
        rintro r w' (rfl | rfl)
        · exact rfl
        · exact .inr ⟨rfl, rfl⟩
      apply sat_quiet_bind
      unfold writeStdout
      apply sat_operation
      · intro fl
        exact rest _ _ hd
      · intro fl n
        refine rest _ _ ?_
        split
        · exact hd
        · exact .inr rfl
      · intro fl n
        exact rfl
  · exact rfl

/-! ## When nothing goes wrong -/

theorem LS.quiet_ok {α β : Type} {m : Sys α} {f : α → LS β} {w w' : World} {a : α} {log : List Record} (h : m w = (.ok a, w')) :
    (LS.quiet m >>= f) (w, log) = f a (w', log) := by
  show LS.bind (LS.quiet m) f (w, log) = _
  unfold LS.bind LS.quiet
  simp only
  rw [h]

theorem LS.writeFile_ok {α β : Type} {i : Nat} {m : LW α} {f : Outcome α → LS β} {fs : FS} {stdout : List UInt8} {log : List Record} :
    (LS.writeFile i m >>= f) (⟨fs, [], stdout⟩, log) =
      f (writing m).run.1 (⟨fs.set i (some (.file (writing m).run.2)), [], stdout⟩, log ++ m.run.2.2) := rfl

theorem patchFileL_eq {α β : Type} {w : World} (hf : w.faults = []) {temp patchable : Path} {read : Reader → Outcome α}
    {f : β → Message} {m : α → LW β} {n : α → WM β} (he : ∀ a, LW.Erases (m a) (n a))
    {r : Reader} {a : α} {b : β} {out : List UInt8} (hr : w.fs.contentAt patchable = some r) (ha : read r = .ok a)
    (hm : (n a).run = (.ok b, out)) (ht : w.fs.node (w.fs.entry temp) = none)
    (hd : w.fs.node (w.fs.entry patchable) ≠ some .dir) :
    patchFileL temp patchable read f m (w, []) =
      (.ok (), { w with fs := w.fs.set (w.fs.entry patchable) (some (.file out)) }, (m a).run.2.2 ++ [⟨.pwPatch, .info, f b⟩]) := by
  have hp : w.fs.node (w.fs.entry patchable) ≠ none := by
    have := FS.entry_some_of_content hr
    intro e
    rw [e] at this
    simp at this
  have hne : w.fs.entry temp ≠ w.fs.entry patchable := by
    intro e
    rw [e] at ht
    exact hp ht
  obtain ⟨fs, faults, stdout⟩ := w
  obtain rfl : faults = [] := hf
  simp only at *
  unfold patchFileL
  rw [LS.quiet_ok (openFile_eq rfl patchable)]
  simp only
  rw [hr]
  simp only
  rw [ha, LS.quiet_ok (ofOutcome_ok a _)]
  simp only
  unfold patchContentL
  rw [LS.quiet_ok (createNew_eq rfl ht)]
  simp only
  rw [LS.quiet_ok (create_eq (w := ⟨_, [], _⟩) rfl (c := []) (by simp))]
  simp only
  rw [LS.writeFile_ok, (he a).writing, hm]
  simp only [finishPatchL, FS.set_set, FS.set_entry, List.nil_append]
  rw [LS.quiet_ok (rename_eq (w := ⟨_, [], _⟩) rfl (by simpa using hne) (by simp) (by simp [Ne.symm hne, hd]))]
  simp only [if_true]
  show ((dropTemp temp _).1, ((dropTemp temp _).2, _)) = _
  rw [dropTemp_none (w := ⟨_, [], _⟩) rfl (by simp)]
  have := patchContent_eq (w := ⟨fs, [], stdout⟩) rfl hm ht hp hd
  unfold patchContent at this
  rw [bind_ok (createNew_eq rfl ht)] at this
  simp only at this
  rw [bind_ok (create_eq (w := ⟨_, [], _⟩) rfl (c := []) (by simp))] at this
  simp only at this
  rw [bind_ok (writeFile_eq (w := ⟨_, [], _⟩) rfl _ _)] at this
  rw [hm] at this
  simp only [finishPatch, FS.set_set, FS.set_entry] at this
  rw [bind_ok (rename_eq (w := ⟨_, [], _⟩) rfl (by simpa using hne) (by simp) (by simp [Ne.symm hne, hd]))] at this
  simp only [if_true] at this
  rw [dropTemp_none (w := ⟨_, [], _⟩) rfl (by simp)] at this
  rw [(Prod.mk.inj this).2]

theorem pwPatchL_eq {w : World} (hf : w.faults = []) (p : Profile) (temp patch : Path) (rev : Bool) {d : Diff}
    (hd : HoldsDiff w.fs patch d) : pwPatchL p temp patch rev (w, []) = applyDiffL p temp rev d (w, []) := by
  obtain ⟨r, hr, hd⟩ := hd
  unfold pwPatchL
  rw [LS.quiet_ok (openFile_eq hf patch), hr]
  simp only
  rw [hd, LS.quiet_ok (ofOutcome_ok d w)]

end PwDiff
