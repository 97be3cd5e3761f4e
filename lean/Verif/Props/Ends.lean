import Verif.Proofs.Ends
import Verif.Props.Size
import Verif.Props.Sides
import Verif.Props.Tidy

/-! # C125: the programs end, whatever the files are -/

namespace PwDiff

open ChangeBasics TextClump Sys Json

/-! ## Applying clumps -/

theorem plain_diffClump (p : Profile) {T : Type} (c : DiffClump T) : PlainClump p c := by
  refine ⟨fun rev => uadd_ends _ _ _, fun rev => ?_, fun r rev => ?_⟩
  · show (ChangeBasics.defaultBeforeLength _ _ _).Ends
    unfold ChangeBasics.defaultBeforeLength
    ends []
  · show ((c.beforeSide rev).itemsIn p r).Ends
    unfold Snippet.itemsIn
    ends []

theorem plain_unified (p : Profile) (c : UnifiedDiffClump) : PlainClump p c := by
  refine ⟨fun rev => uadd_ends _ _ _, fun rev => .ok _, fun r rev => ?_⟩
  cases r with
  | none => exact .ok _
  | some r => exact slice_ends _ _ _

/-- Applying a patch ends (successfully or not), whatever the patch is (also a hand-made one, with any line numbers), whatever the file is,
in both directions and in both builds. -/
theorem C125_text {T : Type} [DecidableEq T] [Item T] [LawfulItem T] (p : Profile) (cs : List (DiffClump T)) (l : List T) (rev : Bool)
    (hc : ∀ c ∈ cs, c.contextLengths.2 < 256) (hs : l.length + (cs.map fun c => (c.beforeSide rev).items.length).sum < 2 ^ 63) :
    (applyInto p cs l rev).run.1 ≠ .diverge := by
  rw [← total_eq] at hs
  refine ((applyInto_ends' (p := p) (fun c => (c.beforeSide rev).items) (fun c => (c.beforeSide (!rev)).items) l rev cs
    (fun c _ => plain_diffClump p c) (fun c _ => sideHas_diffClump p c rev) (fun c _ => sideHas_diffClump p c (!rev)) ?_ hs).ne
      ⟨[], none⟩ rfl).1
  intro c hcc
  have h1 : c.contextLengths.2 < 256 := hc c hcc
  have h2 := le_total (fun c : DiffClump T => (c.beforeSide rev).items.length) cs c hcc
  show c.contextLengths.2 + _ < _
  simp only [wordSize]; omega

/-- The same for the hunks of a unified diff. -/
theorem C125_unified (p : Profile) (cs : List UnifiedDiffClump) (l : List Str) (rev : Bool)
    (hc : ∀ c ∈ cs, c.contextLengths.2 < 256)
    (hs : l.length + (cs.map fun c => (if rev then c.afterLines else c.beforeLines).length).sum < 2 ^ 63) :
    (applyInto p cs l rev).run.1 ≠ .diverge := by
  rw [← total_eq] at hs
  refine ((applyInto_ends' (p := p) (fun c => if rev then c.afterLines else c.beforeLines)
    (fun c => if !rev then c.afterLines else c.beforeLines) l rev cs
    (fun c _ => plain_unified p c) (fun c _ => sideHas_unified p c rev) (fun c _ => sideHas_unified p c (!rev)) ?_ hs).ne
      ⟨[], none⟩ rfl).1
  intro c hcc
  have h1 : c.contextLengths.2 < 256 := hc c hcc
  have h2 := le_total (fun c : UnifiedDiffClump => (if rev then c.afterLines else c.beforeLines).length) cs c hcc
  show c.contextLengths.2 + _ < _
  simp only [wordSize]; omega

/-- Looking whether a patch is applied already ends. -/
theorem C125_already {T : Type} [DecidableEq T] (p : Profile) (cs : List (DiffClump T)) (l : List T) (rev : Bool)
    (hs : l.length < 2 ^ 64) : isAlreadyApplied p cs l rev ≠ .diverge :=
  (isAlreadyApplied_ends l rev cs (fun c _ => plain_diffClump p c) hs).ne

example : isAlreadyApplied .release [(⟨(0, 0), ⟨2 ^ 63, [ln 'a']⟩, ⟨2 ^ 63, [ln 'b']⟩⟩ : DiffClump Str)] [ln 'x'] true ≠ .diverge :=
  C125_already .release _ _ _ (by decide)

/-- Byte patches have no search. -/
theorem C125_bytes (p : Profile) (cs : List (DiffClump UInt8)) (l : List UInt8) (rev : Bool) :
    (byteApplyInto p cs l rev).run.1 ≠ .diverge := by
  have h0 : ∀ a b n, (hasSubsequenceAt (T := UInt8) p a b n).Ends := by
    intro a b n
    unfold hasSubsequenceAt
    ends []
  have h1 := writeIntoUpto_ends (T := UInt8) p
  have h3 := writeItems_ends (T := UInt8)
  have h : ∀ (cs : List (DiffClump UInt8)) pd, (byteApplyLoop p l rev cs pd).Ends := by
    intro cs
    induction cs with
    | nil => intro pd; exact .pure _
    | cons c cs ih =>
      intro pd
      unfold byteApplyLoop byteApplyStep byteWillApply byteIsAlreadyApplied byteClumpApplyInto byteAlreadyAppliedInto
        Snippet.writeInto ConsumableSeq.advanceConsumedBy
      ends [h0, h1, h3, ih]
  have h2 := writeInto_ends (T := UInt8) p
  have : (byteApplyInto p cs l rev).Ends := by
    unfold byteApplyInto ConsumableSeq.writeRemainder
    ends [h, h2]
  exact (this.ne ⟨[], none⟩ rfl).1

/-! ## A long search -/

theorem wrapI_of {x : Int} (h1 : -(halfWord : Int) ≤ x) (h2 : x < halfWord) : wrapI x = x := by
  unfold wrapI
  rw [Int.emod_eq_of_lt (by omega) (by simp only [wordSize, halfWord] at *; omega)]
  omega

/-- A hand-made patch with the line number 2^63, which is the smallest number of an `isize` after `as isize`. -/
def farClump : DiffClump Str := ⟨(0, 0), ⟨2 ^ 63, [['a', '\n']]⟩, ⟨2 ^ 63, [['b', '\n']]⟩⟩

theorem far_at {pos : Nat} (h : 1 ≤ pos) (h2 : pos < halfWord) : beforeIsSubsequenceInAt .release farClump [['x', '\n']] pos none false = .ok false := by
  have e : myBeforeRange .release farClump none false = .ok ⟨0, 1⟩ := by decide +kernel
  unfold beforeIsSubsequenceInAt
  rw [e]
  have e2 : uadd .release pos 1 = .ok (pos + 1) := if_pos (by simp only [halfWord, wordSize] at *; omega)
  show (uadd .release pos 1 >>= _) = _
  rw [e2]
  show (if pos + 1 > 1 then _ else _) = _
  rw [if_pos (by omega)]; rfl

theorem far_start {o : Int} : beforeAdjustedStart .release farClump o none false = iadd .release (-(halfWord : Int)) o := rfl

theorem far_willApply {o s : Int} (h : iadd .release (-(halfWord : Int)) o = .ok s) (hs : s < 0 ∨ 1 ≤ s) (h2 : s < halfWord) :
    willApply .release farClump [['x', '\n']] o false = .ok none := by
  unfold willApply
  rw [far_start, h]
  show (if s < 0 then _ else (beforeIsSubsequenceInAt .release farClump [['x', '\n']] (asUsize s) none false >>= _)) = _
  rcases hs with hs | hs
  · rw [if_pos hs]; rfl
  · rw [if_neg (by omega), far_at]
    · rfl
    · rw [asUsize, if_pos (by omega)]; omega
    · rw [asUsize, if_pos (by omega)]; omega

theorem far_loop (fuel : Nat) : ∀ i : Int, 1 ≤ i → i + fuel < halfWord →
    nearbyLoop .release farClump ⟨[['x', '\n']], 0⟩ 0 0 false fuel i false false = .diverge := by
  induction fuel with
  | zero => intros; rfl
  | succ fuel ih =>
    intro i h1 h2
    have n1 : iadd .release i 1 = .ok (i + 1) := if_pos ⟨by omega, by omega⟩
    have b1 : iadd .release 0 (-i) = .ok (-i) := by
      rw [iadd, if_pos ⟨by omega, by omega⟩, Int.zero_add]
    have f1 : iadd .release 0 i = .ok i := by
      rw [iadd, if_pos ⟨by omega, by omega⟩, Int.zero_add]
    have b2 : iadd .release (-(halfWord : Int)) (-i) = .ok (halfWord - i) := by
      rw [iadd, if_neg (by omega)]
      show Outcome.ok (wrapI _) = _
      have := wrapI_shift (halfWord - i) (-1)
      rw [wrapI_of (x := halfWord - i) (by omega) (by omega)] at this
      rw [← this]
      congr 2
      simp only [halfWord, wordSize]; omega
    have f2 : iadd .release (-(halfWord : Int)) i = .ok (-halfWord + i) := if_pos ⟨by omega, by omega⟩
    have hb : nearbyBackward .release farClump ⟨[['x', '\n']], 0⟩ 0 false i false = .ok (none, false) := by
      unfold nearbyBackward
      rw [if_neg (by simp), b1]
      show (beforeAdjustedStart .release farClump (-i) none false >>= _) = _
      rw [far_start, b2]
      show (if (halfWord : Int) - i < asIsize 0 then _ else (willApply .release farClump [['x', '\n']] (-i) false >>= _)) = _
      rw [if_neg (by simp [asIsize, halfWord] at *; omega), far_willApply b2 (by omega) (by omega)]
      rfl
    have hf : nearbyForward .release farClump ⟨[['x', '\n']], 0⟩ 0 0 false i false = .ok (none, false) := by
      unfold nearbyForward
      rw [if_neg (by simp), f1]
      show (beforeAdjustedStart .release farClump i none false >>= _) = _
      rw [far_start, f2]
      show (if -(halfWord : Int) + i < asIsize 0 then (willApply .release farClump [['x', '\n']] i false >>= _) else _) = _
      rw [if_pos (by simp [asIsize, halfWord] at *; omega), far_willApply f2 (by omega) (by omega)]
      rfl
    unfold nearbyLoop
    rw [n1]
    show (nearbyBackward .release farClump ⟨[['x', '\n']], 0⟩ 0 false i false >>= _) = _
    rw [hb]
    show (nearbyForward .release farClump ⟨[['x', '\n']], 0⟩ 0 0 false i false >>= _) = _
    rw [hf]
    exact ih (i + 1) (by omega) (by omega)

/-- Ending is not the same as ending soon: a patch of two lines, whose line number is 2^63, makes the release build try more than 2^62
positions in a file of one line. (The limit of the search is what `will_apply_nearby` computes for the file; rounds are counted by the fuel.) -/
theorem C125_long : ∃ (c : DiffClump Str) (l : List Str), (c.before.items ++ c.after.items).length = 2 ∧ l.length = 1 ∧
    c.before.start < 2 ^ 64 ∧ ∃ na, nearbyLimit .release c ⟨l, 0⟩ none 0 false = .ok na ∧
      ∀ rounds < 2 ^ 63 - 1, nearbyLoop .release c ⟨l, 0⟩ na 0 false rounds 1 false false = .diverge :=
  ⟨farClump, [['x', '\n']], rfl, rfl, by decide, 0, by decide +kernel, fun rounds h => far_loop rounds 1 (by omega) (by simp only [halfWord]; omega)⟩

/-- `C125_text` speaks of this patch too; in a debug build the search panics. -/
example (p : Profile) : (applyInto p [farClump] [['x', '\n']] false).run.1 ≠ .diverge :=
  C125_text p _ _ _ (by decide) (by decide)
example : (applyInto .debug [farClump] [['x', '\n']] false).run.1 = .panic := by decide +kernel

/-- A hunk of a unified diff with the same line number. -/
example (p : Profile) : (applyInto p [(⟨⟨⟨2 ^ 63, 1⟩, ⟨2 ^ 63, 1⟩⟩, [['a', '\n']], [['b', '\n']], (0, 0), 3⟩ : UnifiedDiffClump)] [['x', '\n']] true).run.1 ≠ .diverge :=
  C125_unified p _ _ _ (by decide +kernel) (by decide +kernel)

/-! ## The programs -/

theorem norm_ends {β : Type} {m : WM β} (h : WM.Norm m) (hr : m.run.1 ≠ .diverge) (w : Writer) : (m w).1 ≠ .diverge := by
  obtain ⟨out, o, rfl⟩ := h
  rw [WM.run_emit] at hr
  rw [WM.emit_apply]
  split
  · exact hr
  · split
    · exact hr
    · exact nofun

/-- The process does not go on for ever. -/
def GoesOn (r : Except Ended α) : Prop := r = .error .diverged

theorem operation_ends {α : Type} (n : World → α × World) (f : Nat → World → α × World) (k : Nat → World → World) (w : World) :
    (operation n f k).Sat w fun r _ => ¬ GoesOn r :=
  sat_operation (fun _ => nofun) (fun _ _ => nofun) (fun _ _ => nofun)

theorem sat_bind_ends {α β : Type} {m : Sys α} {f : α → Sys β} {w : World} (h : m.Sat w fun r _ => ¬ GoesOn r)
    (hf : ∀ a w', (f a).Sat w' fun r _ => ¬ GoesOn r) : (m >>= f).Sat w fun r _ => ¬ GoesOn r := by
  apply Sat.bind
  refine h.mono ?_
  intro r w' hr
  cases r with
  | ok a => exact hf a w'
  | error e => exact fun h => hr (by cases h; rfl)

theorem finishPatch_ends {β : Type} (temp target : Path) {o : Outcome β} (h : o ≠ .diverge) (w : World) :
    (finishPatch temp target o).Sat w fun r _ => ¬ GoesOn r := by
  have hdrop : ∀ w, (dropTemp temp).Sat w fun r _ => ¬ GoesOn r := fun w =>
    sat_bind_ends (operation_ends _ _ _ w) fun _ _ => sat_pure nofun
  cases o with
  | diverge => exact absurd rfl h
  | ioErr => exact sat_exit nofun
  | panic => exact sat_bind_ends (hdrop w) fun _ _ => sat_exit nofun
  | ok b =>
    refine sat_bind_ends (operation_ends _ _ _ w) fun b w' => ?_
    cases b with
    | true => exact hdrop w'
    | false => exact sat_exit nofun

theorem patchContent_ends {β : Type} (temp target : Path) {m : WM β} (h : WM.Norm m) (hr : m.run.1 ≠ .diverge) (w : World) :
    (patchContent temp target m).Sat w fun r _ => ¬ GoesOn r := by
  unfold patchContent
  refine sat_bind_ends (operation_ends _ _ _ w) fun i w => ?_
  cases i with
  | none => exact sat_exit nofun
  | some _ =>
    refine sat_bind_ends (operation_ends _ _ _ w) fun i w => ?_
    cases i with
    | none => exact sat_exit nofun
    | some i =>
      apply Sat.bind
      refine sat_writeFile (fun fl => ?_) (fun fl n => ?_) (fun fl n => nofun)
      · exact finishPatch_ends temp target hr _
      · exact finishPatch_ends temp target (norm_ends h hr _) _

theorem addFile_ends {β : Type} (path : Path) (m : WM β) (w : World) : (addFile path m).Sat w fun r _ => ¬ GoesOn r := by
  unfold addFile
  refine sat_bind_ends (operation_ends _ _ _ w) fun i w => ?_
  cases i with
  | none => exact sat_pure nofun
  | some i => exact sat_bind_ends (operation_ends _ _ _ w) fun _ _ => sat_pure nofun

theorem deleteFile_ends (path : Path) (w : World) : (deleteFile path).Sat w fun r _ => ¬ GoesOn r := by
  unfold deleteFile
  refine sat_bind_ends (operation_ends _ _ _ w) fun b w => ?_
  cases b with
  | true => exact sat_pure nofun
  | false => exact sat_exit nofun

theorem sat_ofOutcome {α β : Type} {o : Outcome α} {f : Option α → Sys β} {w : World} (h : ∃ x, ofOutcome o = (pure x : Sys (Option α)) ∧
    (f x).Sat w fun r _ => ¬ GoesOn r) : (ofOutcome o >>= f).Sat w fun r _ => ¬ GoesOn r := by
  obtain ⟨x, e, h⟩ := h
  rw [e]
  exact Sat.bind h

theorem patchFile_ends {α β : Type} (temp target : Path) {read : Reader → Outcome α} {apply : α → WM β}
    (hread : ∀ r, read r = .ioErr ∨ ∃ a, read r = .ok a) (hfails : ∀ r a, read r = .ok a → r.fails = false)
    (hn : ∀ a, WM.Norm (apply a)) (w : World)
    (hr : ∀ r a, w.fs.contentAt target = some r → read r = .ok a → (apply a).run.1 ≠ .diverge) :
    (patchFile temp target read apply).Sat w fun r _ => ¬ GoesOn r := by
  unfold patchFile
  apply Sat.bind
  have err : ∀ {r} {w' : World}, read r = .ioErr → ∀ {f : Option α → Sys Unit}, (∀ w, (f none).Sat w fun r _ => ¬ GoesOn r) →
      (ofOutcome (read r) >>= f).Sat w' fun r _ => ¬ GoesOn r := by
    intro r w' h f hf
    rw [h]
    exact Sat.bind (hf w')
  refine sat_openFile (fun fl _ => sat_exit nofun) (fun fl => nofun) (fun fl r hf => ?_) (fun fl r hc => ?_)
  · rcases hread r with h | ⟨a, h⟩
    · exact err h fun w => sat_exit nofun
    · rw [hfails r a h] at hf; cases hf
  · rcases hread r with h | ⟨a, h⟩
    · exact err h fun w => sat_exit nofun
    · have hr := hr r a hc h
      dsimp only
      rw [h]
      exact Sat.bind (patchContent_ends temp target (hn a) hr _)

/-- Whatever the patch file is and whatever the other files are, whichever operations fail and wherever the process is killed: `pw_patch`
ends. (No file has 2^62 bytes.) -/
theorem C125_patch (p : Profile) (temp patch : Path) (rev : Bool) (w : World) (hs : w.fs.Small) :
    ((pwPatch p temp patch rev).run w).1 ≠ .diverged := by
  have key : (pwPatch p temp patch rev).Sat w fun r _ => ¬ GoesOn r := by
    unfold pwPatch
    apply Sat.bind
    refine sat_openFile (fun fl _ => sat_exit nofun) (fun fl => nofun) (fun fl r hf => ?_) (fun fl r hc => ?_)
    · obtain ⟨data, fails⟩ := r
      obtain rfl : fails = true := hf
      exact sat_ofOutcome ⟨none, rfl, sat_exit nofun⟩
    · by_cases hd : ∃ d, Diff.fromReader r = .ok d
      · obtain ⟨d, hd⟩ := hd
        dsimp only
        rw [hd]
        refine sat_ofOutcome ⟨some d, rfl, ?_⟩
        have hr := hs.at patch r hc
        have hin := (C88_rewritten _ _ hd).1
        have hsz : diffCost d ≤ r.data.length := by
          rcases FS.contentAt_fails hc with ⟨c, rfl⟩ | rfl
          · exact fromReader_size hd
          · cases hd
        cases d with
        | textChange t =>
          refine patchFile_ends temp _ readText_total (fun r a h => ((readText_eq_ok_iff r a).1 h).1) (fun a => norm_applyInto ..) _ ?_
          intro r' ls h1 h2
          obtain ⟨s, rfl, rfl⟩ := readText_content h2
          have hr' := hs.at _ _ h1
          have hl := length_splitInclusive_le s
          refine C125_text p t.clumps _ rev (fun c hc => (hin c hc).2.1) ?_
          have hn : 1 * total (fun c : DiffClump Str => (c.beforeSide rev).items.length) t.clumps
              ≤ 1 * total (fun c => 1 + clumpCost lineCost c) t.clumps := by
            refine total_le fun c _ => ?_
            simp only [clumpCost, snippetCost, total_lineCost]
            cases rev <;> simp only [DiffClump.beforeSide, if_true, if_false, Bool.false_eq_true] <;> omega
          rw [← total_eq]
          simp only [diffCost] at hsz
          simp only at hr'
          omega
        | byteChange t =>
          refine patchFile_ends temp _ readBytes_total (fun r a h => ?_) (fun a => norm_byteApplyInto ..) _ fun r' bs _ _ => C125_bytes _ _ _ _
          unfold readBytes at h
          split at h
          · cases h
          · next hf => simpa using hf
        | textAdd d | textRemove d | byteAdd d | byteRemove d =>
          cases rev
          all_goals first | exact addFile_ends _ _ _ | exact deleteFile_ends _ _
      · have : Diff.fromReader r = .ioErr := fromReader_total r fun d h => hd ⟨d, h⟩
        dsimp only
        rw [this]
        exact sat_ofOutcome ⟨none, rfl, sat_exit nofun⟩
  unfold Sys.run
  unfold Sat at key
  split
  · exact nofun
  · next e w' he =>
    rw [he] at key
    rintro rfl
    exact key rfl

/-- So the description of `C86` always says what happens. -/
theorem C125_normal (p : Profile) (temp patch : Path) (rev : Bool) (w : World) (hf : w.faults = []) (hs : w.fs.Small) :
    ∃ e fs', (pwPatch p temp patch rev).run w = (e, { w with fs := fs' }) ∧ e ≠ .diverged ∧ Does p temp patch rev w.fs e fs' := by
  have h := C125_patch p temp patch rev w hs
  generalize hr : (pwPatch p temp patch rev).run w = r at h
  obtain ⟨e, w'⟩ := r
  obtain ⟨h1, h2⟩ := (C86_normal p temp patch rev w hf e h w').1 hr
  exact ⟨e, w'.fs, by rw [← h2], h, h1⟩

/-- The patch of `C125_long` in a file. -/
def farText : Str := "{\"TextChange\":[\"A\",\"B\",[[[0,0],[9223372036854775808,[\"a\\n\"]],[9223372036854775808,[\"b\\n\"]]]]]}".toList

example : (readDocument farText).bind toDiff = some (.textChange ⟨[65], [66], [farClump]⟩) := by decide +kernel

/-- Whichever operations fail. -/
example (p : Profile) (rev : Bool) (faults : List Fault) (out : List UInt8) :
    ((pwPatch p [84] [67] rev).run ⟨FS.ofFiles [([65], [120, 10]), ([67], farText.bytes)], faults, out⟩).1 ≠ .diverged := by
  refine C125_patch p _ _ rev _ ?_
  obtain ⟨-, -, -, -, e4, e5, -⟩ := FS.ofFiles_two [120, 10] farText.bytes
  intro i content h
  match i with
  | 0 => rw [e4] at h; cases h; decide
  | 1 => rw [e5] at h; cases h; decide +kernel
  | _ + 2 => simp [FS.ofFiles] at h

/-- The same for `pw_diff`; here the sizes do not matter. -/
theorem C125_diff (p : Profile) (before after : Path) (context : Nat) (w : World) :
    ((pwDiff p before after context).run w).1 ≠ .diverged := by
  have key : (pwDiff p before after context).Sat w fun r _ => ¬ GoesOn r := by
    unfold pwDiff
    refine sat_bind_ends ((quiet_diffNew p before after context w).mono ?_) fun o w => ?_
    · rintro r w' ⟨-, -, ⟨a, rfl⟩ | rfl⟩ <;> exact nofun
    · cases o with
      | none => exact sat_exit nofun
      | some d =>
        obtain ⟨o, r, o', e1, -, h⟩ := stops_toWriter d
        have hr : r ≠ .diverge ∧ r ≠ .panic := by
          rcases h with ⟨rfl, -⟩ | ⟨rfl, -⟩ <;> exact ⟨nofun, nofun⟩
        have next : ∀ x : Outcome Unit, x ≠ .diverge → ∀ w, ((do
            let some _ ← ofOutcome x | exit 5
            return ()) : Sys Unit).Sat w fun r _ => ¬ GoesOn r := by
          intro x hx w
          cases x with
          | diverge => exact absurd rfl hx
          | ok | ioErr | panic => exact nofun
        apply Sat.bind
        rw [e1]
        refine sat_operation (fun fl => ?_) (fun fl n => ?_) (fun fl n => nofun)
        · rw [WM.run_emit]; exact next _ hr.1 _
        · rw [WM.run_emit]
          dsimp only
          split
          · exact next _ hr.1 _
          · exact next .ioErr nofun _
  unfold Sys.run
  unfold Sat at key
  split
  · exact nofun
  · next e w' he =>
    rw [he] at key
    rintro rfl
    exact key rfl

end PwDiff
