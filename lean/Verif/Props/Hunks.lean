import Verif.Props.Relabel
import Verif.Props.UnifiedText
import Verif.Props.Fuzzy

/-! # C102: patching with the hunks of a unified diff -/

namespace PwDiff

open ChangeBasics TextClump

/-! ## Hunks patch like clumps -/

/-- The clump with the lines, the place and the context lengths of a hunk. -/
def UnifiedDiffClump.asClump (u : UnifiedDiffClump) : DiffClump Str :=
  ⟨u.contextLengths, ⟨u.startsAndLengths.before.start, u.beforeLines⟩, ⟨u.startsAndLengths.after.start, u.afterLines⟩⟩

/-- The hunk has as many lines as it announces, and the numbers of the lines are machine words. -/
structure UnifiedDiffClump.Sound (u : UnifiedDiffClump) : Prop where
  old : u.beforeLines.length = u.startsAndLengths.before.length
  new : u.afterLines.length = u.startsAndLengths.after.length
  oldWord : u.startsAndLengths.before.start + u.startsAndLengths.before.length < wordSize
  newWord : u.startsAndLengths.after.start + u.startsAndLengths.after.length < wordSize

theorem renamed_asClump (p : Profile) {u : UnifiedDiffClump} (h : u.Sound) : Renamed p id (fun _ => True) u.asClump u := by
  obtain ⟨h1, h2, h3, h4⟩ := h
  have hs : ∀ r, (u.asClump.beforeSide r).start = if r then u.startsAndLengths.after.start else u.startsAndLengths.before.start := by
    intro r; cases r <;> rfl
  have hi : ∀ r, (u.asClump.beforeSide r).items = if r then u.afterLines else u.beforeLines := by
    intro r; cases r <;> rfl
  have hl : ∀ r, (u.asClump.beforeSide r).items.length =
      if r then u.startsAndLengths.after.length else u.startsAndLengths.before.length := by
    intro r
    cases r with
    | false => exact h1
    | true => exact h2
  have hw : ∀ r, (u.asClump.beforeSide r).start + (u.asClump.beforeSide r).items.length < wordSize := by
    intro r
    rw [hs, hl]
    cases r with
    | false => exact h3
    | true => exact h4
  refine ⟨fun r => (hs r).symm, fun r => ?_, fun r => ?_, rfl, fun range r => ?_⟩
  · show uadd p _ _ = uadd p (u.asClump.beforeSide r).start (u.asClump.beforeSide r).items.length
    rw [hs, hl]
  · show Outcome.ok _ = ChangeBasics.defaultBeforeLength p (u.asClump.beforeSide r).start
      (uadd p (u.asClump.beforeSide r).start (u.asClump.beforeSide r).items.length)
    rw [uadd_ok (hw r)]
    show _ = usub p _ _
    rw [usub_ok (Nat.le_add_right ..), Nat.add_sub_cancel_left, hl]
  · show Alike _ ((u.asClump.beforeSide r).itemsIn p range) (match range with
      | some q => slice (if r then u.afterLines else u.beforeLines) q.start q.fin
      | none => .ok (if r then u.afterLines else u.beforeLines))
    rw [← hi]
    have hw := hw r
    generalize u.asClump.beforeSide r = s at hw
    cases range with
    | none => exact .ok ⟨by simp, fun _ _ => trivial⟩
    | some q =>
      have e : s.itemsIn p (some q) = slice s.items q.start q.fin := by
        unfold Snippet.itemsIn
        cases p with
        | release => rfl
        | debug =>
          have : uadd .debug s.len s.start = .ok (s.len + s.start) := uadd_ok (by rw [Snippet.len]; omega)
          simp only [this, Outcome.ok_bind]
          unfold slice
          by_cases hc : q.start ≤ q.fin ∧ q.fin ≤ s.items.length
          · have : q.isValidForMaxEnd (s.len + s.start) = true := by
              simp only [Range.isValidForMaxEnd, Range.isValid, Snippet.len, Bool.and_eq_true, decide_eq_true_eq]
              exact ⟨hc.1, decide_eq_true (Nat.le_trans hc.2 (Nat.le_add_right ..))⟩
            rw [this, if_pos hc]
            rfl
          · rw [if_neg hc]
            unfold debugAssert
            dsimp only
            split <;> rfl
      show Alike _ (s.itemsIn p (some q)) (slice s.items q.start q.fin)
      rw [e]
      exact Alike.refl (fun x => ⟨by simp, fun _ _ => trivial⟩) _

theorem allRenamed_asClump (p : Profile) {us : List UnifiedDiffClump} (h : ∀ u ∈ us, u.Sound) :
    AllRenamed p id (fun _ => True) (us.map UnifiedDiffClump.asClump) us := by
  induction us with
  | nil => exact .nil
  | cons u us ih => exact .cons (renamed_asClump p (h u (by simp))) (ih fun u hu => h u (by simp [hu]))

/-- Patching with hunks, whatever they are, is patching with the clumps that have the same lines: any file, direction and
outcome. -/
theorem C102_alike (p : Profile) (us : List UnifiedDiffClump) (h : ∀ u ∈ us, u.Sound) (l : List Str) (reverse : Bool) :
    (applyInto p us l reverse).run = (applyInto p (us.map UnifiedDiffClump.asClump) l reverse).run := by
  have := (sim_applyInto (P := fun _ : Str => True) (l := l) (fun _ _ => trivial) (fun _ _ _ _ (e : id _ = id _) => e) (allRenamed_asClump p h) reverse).run
  obtain ⟨r, pieces, e1, e2, -⟩ := this
  rw [List.map_id] at e2
  rw [e1, e2]
  congr 2
  rw [show (Piece.map id : Piece Str → Piece Str) = id from by funext x; cases x <;> rfl, List.map_id]

/-- So is the question whether the patch is already applied. -/
theorem C102_already (p : Profile) (us : List UnifiedDiffClump) (h : ∀ u ∈ us, u.Sound) (l : List Str) (reverse : Bool) :
    isAlreadyApplied p us l reverse = isAlreadyApplied p (us.map UnifiedDiffClump.asClump) l reverse := by
  have := isAlreadyApplied_renamed (P := fun _ : Str => True) (l := l) (fun _ _ => trivial) (fun _ _ _ _ (e : id _ = id _) => e)
    (allRenamed_asClump p h) reverse
  rwa [List.map_id] at this

/-! ## Reading a unified diff -/

/-- The text of the hunks of a unified diff. -/
def unifiedText (texts : List UnifiedClumpText) : Str := texts.flatMap fun t => t.header ++ ['\n'] ++ t.lines.flatten

/-- The hunks `us` are read from line `n` to the end, each at the place where the one before it ended. -/
inductive ReadsHunks (p : Profile) (nd : Digits) (lines : List Str) : Nat → List UnifiedDiffClump → Prop
  | done {n} : lines.length ≤ n → ReadsHunks p nd lines n []
  | hunk {n u us} : getFromAt p nd lines n = .ok (.ok (some u)) → ReadsHunks p nd lines (n + u.linesConsumed) us →
      ReadsHunks p nd lines n (u :: us)

/-- The hunk that is read for a clump. -/
def hunkOf (before after : List Str) (cc : ChangeClump) : UnifiedDiffClump :=
  let body := textOf before after cc.changes
  ⟨cc.header, body.filter isOld, body.filter isNew, cc.contextLengths, body.length + 1⟩

theorem endsWell_append {s t : Str} (hs : EndsWell s) (ht : EndsWell t) : EndsWell (s ++ t) := by
  rcases ht with rfl | ⟨x, rfl⟩
  · rwa [List.append_nil]
  · exact .inr ⟨s ++ x, by simp⟩

theorem endsWell_flatten {ls : List Str} (h : ∀ l ∈ ls, WholeLine l) : EndsWell ls.flatten := by
  induction ls with
  | nil => exact .inl rfl
  | cons l ls ih =>
    rw [List.flatten_cons]
    obtain ⟨x, e, -⟩ := h l (by simp)
    exact endsWell_append (.inr ⟨x, e⟩) (ih fun l hl => h l (by simp [hl]))

theorem unifiedText_head {texts : List UnifiedClumpText} (h : ∀ t ∈ texts, ∃ sal : StartsAndLengths, t.header = sal.display) :
    (unifiedText texts).head? ≠ some '\\' := by
  cases texts with
  | nil => simp [unifiedText]
  | cons t texts =>
    obtain ⟨sal, e⟩ := h t (by simp)
    simp only [unifiedText, List.flatMap_cons, e, StartsAndLengths.display]
    split <;> split <;> simp

/-- The hunks of the unified diff of two texts that end in newlines (or are empty) are read one after the other, up to the end
of the diff. -/
theorem readsHunks (p : Profile) (bound : Nat) (hb : p = .debug → bound ≤ 128) (nd : Digits) (s t : Str) (context : Nat)
    (hctx : context ≤ bound) (hs : EndsWell s) (ht : EndsWell t) (hs64 : s.length < 2 ^ 64) (ht64 : t.length < 2 ^ 64)
    (ccs : List ChangeClump) (texts : List UnifiedClumpText)
    (h1 : clumpsOf p (splitInclusive s) (splitInclusive t) context = .ok ccs)
    (h2 : unifiedClumps p (splitInclusive s) (splitInclusive t) context = .ok texts) :
    ReadsHunks p nd (splitInclusive (unifiedText texts)) 0 (ccs.map (hunkOf (splitInclusive s) (splitInclusive t))) := by
  have h54 := C54_of p bound hb nd s t context hctx hs ht hs64 ht64 ccs texts h1 h2
  obtain ⟨changes, ccs', e1, e2, facts, e3⟩ := unifiedClumps_eq p (splitInclusive s) (splitInclusive t) context
  unfold clumpsOf at h1
  rw [e1] at h1
  obtain rfl := Outcome.ok_inj (e2.symm.trans h1)
  obtain rfl := Outcome.ok_inj (e3.symm.trans h2)
  have hended : ∀ cc : ChangeClump, ∀ l ∈ textOf (splitInclusive s) (splitInclusive t) cc.changes, WholeLine l :=
    fun cc => textOf_ended (cs := cc.changes) (ended_splitInclusive hs) (ended_splitInclusive ht)
  have hcl : ∀ cc ∈ ccs', closed (textOf (splitInclusive s) (splitInclusive t) cc.changes) =
      textOf (splitInclusive s) (splitInclusive t) cc.changes := fun cc hcc => closed_ended (facts cc hcc).nonempty (hended cc)
  generalize hg : (fun cc : ChangeClump => (⟨cc.header.display, closed (textOf (splitInclusive s) (splitInclusive t) cc.changes)⟩ :
    UnifiedClumpText)) = g at *
  have main : ∀ (done todo : List ChangeClump), ccs' = done ++ todo → EndsWell (unifiedText (done.map g)) →
      ReadsHunks p nd (splitInclusive (unifiedText (ccs'.map g))) (splitInclusive (unifiedText (done.map g))).length
        (todo.map (hunkOf (splitInclusive s) (splitInclusive t))) := by
    intro done todo
    induction todo generalizing done with
    | nil =>
      intro e _
      rw [e, List.append_nil]
      exact .done (Nat.le_refl _)
    | cons cc todo ih =>
      intro e hd
      have hmem : cc ∈ ccs' := by rw [e]; simp
      have hk : ccs'[done.length]? = some cc := by rw [e]; simp
      have hu : (ccs'.map g)[done.length]? = some (g cc) := by rw [List.getElem?_map, hk]; rfl
      have hlines : (g cc).lines = textOf (splitInclusive s) (splitInclusive t) cc.changes := by
        rw [← hg]; exact hcl cc hmem
      have hhead : (g cc).header = cc.header.display := by rw [← hg]
      have hall : unifiedText (ccs'.map g) = hunkText (unifiedText (done.map g)) (g cc) (unifiedText (todo.map g)) := by
        rw [e]; simp [unifiedText, hunkText]
      have hpost : (unifiedText (todo.map g)).head? ≠ some '\\' := unifiedText_head (by
        intro t ht
        obtain ⟨cc', -, rfl⟩ := List.mem_map.1 ht
        exact ⟨cc'.header, by rw [← hg]⟩)
      have h54 := h54 done.length cc (g cc) hk hu _ _ hd hpost
      rw [← hall] at h54
      have hnext : unifiedText ((done ++ [cc]).map g) = unifiedText (done.map g) ++ ((cc.header.display ++ ['\n']) ++
          (textOf (splitInclusive s) (splitInclusive t) cc.changes).flatten) := by
        simp [unifiedText, hlines, hhead]
      have hwhole : WholeLine (cc.header.display ++ ['\n']) := ⟨_, rfl, display_no_newline _⟩
      have hend : EndsWell (unifiedText ((done ++ [cc]).map g)) := by
        rw [hnext]
        refine endsWell_append hd (endsWell_append (.inr ⟨_, rfl⟩) (endsWell_flatten (hended cc)))
      have := ih (done ++ [cc]) (by rw [e]; simp) hend
      refine .hunk (u := hunkOf (splitInclusive s) (splitInclusive t) cc) ?_ ?_
      · rw [h54, hlines]; rfl
      · have hlen : (splitInclusive (unifiedText ((done ++ [cc]).map g))).length =
            (splitInclusive (unifiedText (done.map g))).length + (hunkOf (splitInclusive s) (splitInclusive t) cc).linesConsumed := by
          rw [hnext, splitInclusive_append hd, splitInclusive_ended hwhole]
          have := splitInclusive_flatten (hended cc) []
          rw [List.append_nil] at this
          rw [this]
          simp [hunkOf, splitInclusive]
        rw [← hlen]
        exact this
  have := main [] ccs' rfl (.inl rfl)
  simpa [unifiedText, splitInclusive] using this

theorem ReadsHunks.unique {p : Profile} {nd : Digits} {lines : List Str} {n : Nat} {us us' : List UnifiedDiffClump}
    (h : ReadsHunks p nd lines n us) (h' : ReadsHunks p nd lines n us') : us = us' := by
  induction h generalizing us' with
  | done h =>
    cases h' with
    | done _ => rfl
    | hunk e _ => have := C51_counts p nd lines _ _ e; omega
  | hunk e _ ih =>
    cases h' with
    | done h => have := C51_counts p nd lines _ _ e; omega
    | hunk e' h' =>
      obtain rfl := Option.some.inj (Except.ok.inj (Outcome.ok_inj (e.symm.trans e')))
      rw [ih h']

/-- Everything about a unified diff that was read. -/
theorem hunks_read (p : Profile) (nd : Digits) (s t : Str) (context : Nat) (hp : p = .debug → context ≤ 128)
    (hs : EndsWell s) (ht : EndsWell t) (hs64 : s.length < 2 ^ 64) (ht64 : t.length < 2 ^ 64) (texts : List UnifiedClumpText)
    (h : unifiedClumps p (fromText s) (fromText t) context = .ok texts) (us : List UnifiedDiffClump)
    (hr : ReadsHunks p nd (fromText (unifiedText texts)) 0 us) :
    ∃ changes ccs, changesOf p (fromText s) (fromText t) = .ok changes ∧ changeClumps context changes = .ok ccs ∧
      (∀ cc ∈ ccs, TextClumpFacts (fromText s) (fromText t) context cc) ∧
      us = ccs.map (hunkOf (fromText s) (fromText t)) := by
  obtain ⟨changes, ccs, e1, e2, facts, e3⟩ := unifiedClumps_eq p (fromText s) (fromText t) context
  refine ⟨changes, ccs, e1, e2, facts, ?_⟩
  refine hr.unique (readsHunks p context hp nd s t context (Nat.le_refl _) hs ht hs64 ht64 ccs texts ?_ h)
  unfold clumpsOf
  rw [show splitInclusive s = fromText s from rfl, show splitInclusive t = fromText t from rfl, e1]
  exact e2

theorem TextClumpFacts.sound {before after : List Str} {context : Nat} {cc : ChangeClump} (f : TextClumpFacts before after context cc)
    (hb : before.length < wordSize) (ha : after.length < wordSize) : (hunkOf before after cc).Sound := by
  have hd := f.describes
  have h1 := f.inside1
  have h2 := f.inside2
  have h3 := f.tiles.le
  have e1 : (hunkOf before after cc).beforeLines.length = cc.ranges.1.fin - cc.ranges.1.start := by
    have := congrArg List.length hd.old
    rw [unmark, List.length_map] at this
    show ((textOf before after cc.changes).filter isOld).length = _
    rw [this]
    simp only [cut, List.length_take, List.length_drop]
    omega
  have e2 : (hunkOf before after cc).afterLines.length = cc.ranges.2.fin - cc.ranges.2.start := by
    have := congrArg List.length hd.new
    rw [unmark, List.length_map, replay_length before after _ _ _ _ _ f.tiles h1 h2] at this
    exact this
  refine ⟨e1, e2, ?_, ?_⟩
  · show cc.ranges.1.start + (cc.ranges.1.fin - cc.ranges.1.start) < _
    omega
  · show cc.ranges.2.start + (cc.ranges.2.fin - cc.ranges.2.start) < _
    omega

/-- A hunk without the markers of its lines. -/
def UnifiedDiffClump.stripped (u : UnifiedDiffClump) : UnifiedDiffClump := u.map (·.drop 1)

/-- The full statement of C102: the unified diff of two texts, read back and applied to the first text, gives the second (for
texts that end in newlines and without the pattern of C10 for which already the diff is wrong). -/
def C102_statement (p : Profile) : Prop :=
  ∀ (nd : Digits) (s t : Str) (context : Nat), context ≤ 100 → EndsWell s → EndsWell t → NoIsland (fromText s) (fromText t) →
    ∀ (texts : List UnifiedClumpText) (us : List UnifiedDiffClump), unifiedClumps p (fromText s) (fromText t) context = .ok texts →
      ReadsHunks p nd (fromText (unifiedText texts)) 0 us →
      (applyInto p us (fromText s) false).run = (.ok { clean := us.length }, t.bytes)

/-- It fails: the lines of the hunks still have their markers, so the hunk is not found in the file. -/
theorem C102_refuted (p : Profile) : ¬ C102_statement p := by
  intro h
  have := h .asciiOnly ['a', '\n'] ['b', '\n'] 3 (by decide) (.inr ⟨['a'], rfl⟩) (.inr ⟨['b'], rfl⟩)
    (by rintro j i - ⟨x, hx, -⟩; cases j <;> simp [fromText, splitInclusive] at hx)
    [⟨"@@ -0 +0 @@".toList, [['+', 'b', '\n'], ['-', 'a', '\n']]⟩] [⟨⟨⟨0, 1⟩, ⟨0, 1⟩⟩, [['-', 'a', '\n']], [['+', 'b', '\n']], (0, 0), 3⟩]
    (by cases p <;> decide +kernel) (.hunk (by cases p <;> decide +kernel) (.done (by decide +kernel)))
  revert this
  cases p <;> decide +kernel

/-- All the hunks of a unified diff can be read. -/
theorem C102_reads (p : Profile) (nd : Digits) (s t : Str) (context : Nat) (hp : p = .debug → context ≤ 128)
    (hs : EndsWell s) (ht : EndsWell t) (hs64 : s.length < 2 ^ 64) (ht64 : t.length < 2 ^ 64) :
    ∃ texts us, unifiedClumps p (fromText s) (fromText t) context = .ok texts ∧
      ReadsHunks p nd (fromText (unifiedText texts)) 0 us ∧ us.length = texts.length := by
  obtain ⟨changes, ccs, e1, e2, facts, e3⟩ := unifiedClumps_eq p (fromText s) (fromText t) context
  refine ⟨_, _, e3, readsHunks p context hp nd s t context (Nat.le_refl _) hs ht hs64 ht64 ccs _ ?_ e3, by simp⟩
  unfold clumpsOf
  rw [show splitInclusive s = fromText s from rfl, show splitInclusive t = fromText t from rfl, e1]
  exact e2

/-- What holds: without the markers, the hunks that are read patch every file, in both directions, exactly as the diff of the
library's own format does. (Missing: taking the markers away.) -/
theorem C102_partial (p q : Profile) (nd : Digits) (s t : Str) (context : Nat) (hp : p = .debug → context ≤ 128)
    (hs : EndsWell s) (ht : EndsWell t) (hs64 : s.length < 2 ^ 64) (ht64 : t.length < 2 ^ 64)
    (hi : NoIsland (fromText s) (fromText t)) (texts : List UnifiedClumpText) (us : List UnifiedDiffClump)
    (cs : List (DiffClump Str)) (h : unifiedClumps p (fromText s) (fromText t) context = .ok texts)
    (hr : ReadsHunks p nd (fromText (unifiedText texts)) 0 us) (hc : diffClumps p (fromText s) (fromText t) context = .ok cs)
    (l : List Str) (reverse : Bool) :
    (applyInto q (us.map UnifiedDiffClump.stripped) l reverse).run = (applyInto q cs l reverse).run := by
  obtain ⟨changes, ccs, e1, e2, facts, rfl⟩ := hunks_read p nd s t context hp hs ht hs64 ht64 texts h us hr
  obtain ⟨changes', ccs', e1', e2', -, -, e3'⟩ := diffClumps_spec p (fromText s) (fromText t) context
  obtain rfl := Outcome.ok_inj (e1.symm.trans e1')
  obtain rfl := Outcome.ok_inj (e2.symm.trans e2')
  obtain rfl := Outcome.ok_inj (e3'.symm.trans hc)
  have l1 : (fromText s).length < wordSize := Nat.lt_of_le_of_lt (length_splitInclusive s) hs64
  have l2 : (fromText t).length < wordSize := Nat.lt_of_le_of_lt (length_splitInclusive t) ht64
  rw [C102_alike]
  · rw [List.map_map, List.map_map]
    congr 2
    apply List.map_congr_left
    intro cc hcc
    have f := facts cc hcc
    have hd := f.describes
    have hn := hd.new
    rw [f.replayed hi] at hn
    have ho := hd.old
    simp only [unmark] at hn ho
    simp only [Function.comp_apply, UnifiedDiffClump.stripped, UnifiedDiffClump.map, UnifiedDiffClump.asClump, hunkOf, toDiffClump,
      ChangeClump.header, hn, ho]
  · intro u hu
    obtain ⟨u', hu', rfl⟩ := List.mem_map.1 hu
    obtain ⟨cc, hcc, rfl⟩ := List.mem_map.1 hu'
    have := (facts cc hcc).sound l1 l2
    exact ⟨by simpa [UnifiedDiffClump.stripped, UnifiedDiffClump.map] using this.old,
      by simpa [UnifiedDiffClump.stripped, UnifiedDiffClump.map] using this.new, this.oldWord, this.newWord⟩

/-- In particular the first text becomes the second. -/
theorem C102_source (p q : Profile) (nd : Digits) (s t : Str) (context : Nat) (hctx : context ≤ 255) (hp : p = .debug → context ≤ 128)
    (hs : EndsWell s) (ht : EndsWell t) (hb : (fromText s).length ≤ maxLines) (ha : (fromText t).length ≤ maxLines)
    (hs64 : s.length < 2 ^ 64) (ht64 : t.length < 2 ^ 64)
    (hi : NoIsland (fromText s) (fromText t)) (texts : List UnifiedClumpText) (us : List UnifiedDiffClump)
    (h : unifiedClumps p (fromText s) (fromText t) context = .ok texts)
    (hr : ReadsHunks p nd (fromText (unifiedText texts)) 0 us) :
    (applyInto q (us.map UnifiedDiffClump.stripped) (fromText s) false).run = (.ok { clean := us.length }, t.bytes) := by
  obtain ⟨changes, ccs, e1, e2, e3, e4, e5⟩ := diffClumps_spec p (fromText s) (fromText t) context
  rw [C102_partial p q nd s t context hp hs ht hs64 ht64 hi texts us _ h hr e5]
  obtain ⟨changes', ccs', e1', e2', -, rfl⟩ := hunks_read p nd s t context hp hs ht hs64 ht64 texts h us hr
  obtain rfl := Outcome.ok_inj (e1.symm.trans e1')
  obtain rfl := Outcome.ok_inj (e2.symm.trans e2')
  obtain ⟨text, f1, -, -, f2⟩ := C24_partial p q _ _ context hctx hb ha _ e5
  rw [f1, f2 hi]
  simp only [List.length_map]
  congr 1
  show (fromText t).flatMap Str.bytes = _
  rw [flatMap_bytes, show (fromText t).flatten = t from (isLines_splitInclusive t).joined]

theorem not_standsAt {ls l : List Str} {pos : Int} (hb : ∀ x ∈ ls, isBody x = true) (hne : ls ≠ []) (hl : ∀ x ∈ l, isBody x = false) :
    ¬ StandsAt ls l pos := by
  rintro ⟨pre, post, rfl, -⟩
  obtain ⟨x, hx⟩ := List.exists_mem_of_ne_nil ls hne
  have := hl x (by simp [hx])
  rw [hb x hx] at this
  cases this

theorem nowhere_marked {ctx : Nat × Nat} {side : Snippet Str} {l : List Str} (hb : ∀ x ∈ side.items, isBody x = true)
    (hne : side.items ≠ []) (hctx : ctx.1 + ctx.2 ≤ side.items.length) (hl : ∀ x ∈ l, isBody x = false) :
    NowhereFits l ctx side := by
  intro pos
  refine ⟨not_standsAt hb hne hl, fun k hk hk' => not_standsAt ?_ ?_ hl⟩
  · intro x hx
    exact hb x (List.mem_of_mem_take (List.mem_of_mem_drop hx))
  · intro e
    have := congrArg List.length e
    simp only [trim, redn, List.length_drop, List.length_take, List.length_nil] at this
    omega

/-- What happens instead: no hunk applies to a file none of whose lines begins like the line of a hunk; they are all written as
conflicts, with the markers, in front of the file, in release builds always and in debug builds unless a search limit underflows
(then there is a panic, see C36). -/
theorem C102_marked (p q : Profile) (nd : Digits) (s t : Str) (context : Nat) (hctx : context ≤ 255) (hp : p = .debug → context ≤ 128)
    (hs : EndsWell s) (ht : EndsWell t) (hb : (fromText s).length ≤ maxLines) (ha : (fromText t).length ≤ maxLines)
    (hs64 : s.length < 2 ^ 64) (ht64 : t.length < 2 ^ 64) (texts : List UnifiedClumpText) (us : List UnifiedDiffClump)
    (h : unifiedClumps p (fromText s) (fromText t) context = .ok texts)
    (hr : ReadsHunks p nd (fromText (unifiedText texts)) 0 us)
    (hne : ∀ u ∈ us, u.beforeLines ≠ [] ∧ u.afterLines ≠ [])
    (l : List Str) (hsz : l.length ≤ maxLines) (hl : ∀ x ∈ l, x.head? ≠ some ' ' ∧ x.head? ≠ some '+' ∧ x.head? ≠ some '-')
    (hroom : q = .debug → Roomy l DiffClump.before (us.map UnifiedDiffClump.asClump) ∧
      Roomy l DiffClump.after (us.map UnifiedDiffClump.asClump)) :
    (applyInto q us l false).run =
      (.ok { failed := us.length }, us.flatMap (fun u => conflict u.beforeLines u.afterLines) ++ bytesOf l) := by
  obtain ⟨changes, ccs, e1, e2, facts, rfl⟩ := hunks_read p nd s t context hp hs ht hs64 ht64 texts h us hr
  obtain ⟨changes', ccs', e1', e2', -, -, e3'⟩ := diffClumps_spec p (fromText s) (fromText t) context
  obtain rfl := Outcome.ok_inj (e1.symm.trans e1')
  obtain rfl := Outcome.ok_inj (e2.symm.trans e2')
  have l1 : (fromText s).length < wordSize := Nat.lt_of_le_of_lt (length_splitInclusive s) hs64
  have l2 : (fromText t).length < wordSize := Nat.lt_of_le_of_lt (length_splitInclusive t) ht64
  have hd := (diffClumps_full hctx e3').1
  have hl' : ∀ x ∈ l, isBody x = false := by
    intro x hx
    have := hl x hx
    simp [isBody, isOld, isNew, isContext, this]
  have hlen : ∀ cc ∈ ccs, (hunkOf (fromText s) (fromText t) cc).beforeLines.length =
        (toDiffClump (fromText s) (fromText t) cc).before.items.length ∧
      (hunkOf (fromText s) (fromText t) cc).afterLines.length =
        (toDiffClump (fromText s) (fromText t) cc).after.items.length := by
    intro cc hcc
    have f := facts cc hcc
    have hs := f.sound l1 l2
    have h1 := f.inside1
    have h2 := f.inside2
    rw [hs.old, hs.new]
    simp only [hunkOf, toDiffClump, ChangeClump.header, cut, List.length_take, List.length_drop]
    omega
  have hw := hd.wellFormed hb ha
  have hwt := hd.size hb ha hsz
  rw [C102_alike]
  · rw [C36_partial q]
    · simp [List.flatMap_map, UnifiedDiffClump.asClump]
    · intro c hc
      rw [List.map_map] at hc
      obtain ⟨cc, hcc, rfl⟩ := List.mem_map.1 hc
      have := hw _ (List.mem_map_of_mem hcc)
      have hl := hlen cc hcc
      refine ⟨?_, ?_, ?_, ?_⟩
      · exact Nat.le_trans this.ctxBefore (Nat.le_of_eq hl.1.symm)
      · exact Nat.le_trans this.ctxAfter (Nat.le_of_eq hl.2.symm)
      · exact Nat.lt_of_le_of_lt (Nat.add_le_add_left (Nat.le_of_eq hl.1) _) this.sizeBefore
      · exact Nat.lt_of_le_of_lt (Nat.add_le_add_left (Nat.le_of_eq hl.2) _) this.sizeAfter
    · have : ∀ ds : List ChangeClump, (∀ cc ∈ ds, cc ∈ ccs) →
          weight ((ds.map (hunkOf (fromText s) (fromText t))).map UnifiedDiffClump.asClump) =
            weight (ds.map (toDiffClump (fromText s) (fromText t))) := by
        intro ds
        induction ds with
        | nil => exact fun _ => rfl
        | cons d ds ih =>
          intro hds
          have h1 := hlen d (hds d (by simp))
          have h2 := ih fun cc hcc => hds cc (by simp [hcc])
          simp only [List.map_cons, weight, h2]
          rw [← h1.1, ← h1.2]
          rfl
      rw [this ccs fun _ h => h]
      exact hwt
    · intro c hc
      rw [List.map_map] at hc
      obtain ⟨cc, hcc, rfl⟩ := List.mem_map.1 hc
      have hwf := hw _ (List.mem_map_of_mem hcc)
      have hn := hne _ (List.mem_map_of_mem hcc)
      have hln := hlen cc hcc
      have hbody := (facts cc hcc).describes.lines
      exact ⟨nowhere_marked (fun x hx => hbody x (List.mem_filter.1 hx |>.1)) hn.1
          (Nat.le_trans hwf.ctxBefore (Nat.le_of_eq hln.1.symm)) hl',
        nowhere_marked (fun x hx => hbody x (List.mem_filter.1 hx |>.1)) hn.2
          (Nat.le_trans hwf.ctxAfter (Nat.le_of_eq hln.2.symm)) hl'⟩
    · exact hroom
  · intro u hu
    obtain ⟨cc, hcc, rfl⟩ := List.mem_map.1 hu
    exact (facts cc hcc).sound l1 l2

/-! ## A case -/

/-- Two texts, their unified diff in two hunks, and the hunks read back. -/
def hunksBefore : Str := "a\nb\nc\nd\ne\nf\ng\n".toList
def hunksAfter : Str := "a\nx\ny\nc\nd\ne\nf\nh\n".toList
def hunksTexts : List UnifiedClumpText :=
  [⟨"@@ -0,3 +0,4 @@".toList, [" a\n".toList, "-b\n".toList, "+x\n".toList, "+y\n".toList, " c\n".toList]⟩,
   ⟨"@@ -5,2 +6,2 @@".toList, [" f\n".toList, "+h\n".toList, "-g\n".toList]⟩]
def hunksRead : List UnifiedDiffClump :=
  [⟨⟨⟨0, 3⟩, ⟨0, 4⟩⟩, [" a\n".toList, "-b\n".toList, " c\n".toList], [" a\n".toList, "+x\n".toList, "+y\n".toList, " c\n".toList], (1, 1), 6⟩,
   ⟨⟨⟨5, 2⟩, ⟨6, 2⟩⟩, [" f\n".toList, "-g\n".toList], [" f\n".toList, "+h\n".toList], (1, 0), 4⟩]

example : unifiedClumps .debug (fromText hunksBefore) (fromText hunksAfter) 1 = .ok hunksTexts := by decide +kernel
example : ReadsHunks .debug .asciiOnly (fromText (unifiedText hunksTexts)) 0 hunksRead :=
  .hunk (by decide +kernel) (.hunk (by decide +kernel) (.done (by decide +kernel)))
example : ∀ u ∈ hunksRead, u.Sound := by
  intro u hu
  simp only [hunksRead, List.mem_cons, List.not_mem_nil, or_false] at hu
  rcases hu with rfl | rfl
  · exact ⟨rfl, rfl, by decide, by decide⟩
  · exact ⟨rfl, rfl, by decide, by decide⟩
example : (applyInto .debug (hunksRead.map UnifiedDiffClump.stripped) (fromText hunksBefore) false).run =
    (.ok { clean := 2 }, hunksAfter.bytes) := by decide +kernel
example : (applyInto .release hunksRead (fromText hunksBefore) false).run =
    (.ok { failed := 2 }, Str.bytes ("<<<<<<<\n a\n-b\n c\n=======\n a\n+x\n+y\n c\n>>>>>>>\n" ++
      "<<<<<<<\n f\n-g\n=======\n f\n+h\n>>>>>>>\na\nb\nc\nd\ne\nf\ng\n").toList) := by decide +kernel

theorem hunksRead_sound : ∀ u ∈ hunksRead, u.Sound := by
  intro u hu
  simp only [hunksRead, List.mem_cons, List.not_mem_nil, or_false] at hu
  rcases hu with rfl | rfl
  · exact ⟨rfl, rfl, by decide, by decide⟩
  · exact ⟨rfl, rfl, by decide, by decide⟩
theorem hunksRead_reads : ReadsHunks .debug .asciiOnly (fromText (unifiedText hunksTexts)) 0 hunksRead :=
  .hunk (by decide +kernel) (.hunk (by decide +kernel) (.done (by decide +kernel)))
example := C102_alike .debug hunksRead hunksRead_sound (fromText hunksBefore) false
example := C102_already .debug hunksRead hunksRead_sound (fromText hunksAfter) false
example := C102_partial .debug .release .asciiOnly hunksBefore hunksAfter 1 (fun _ => by decide) (.inr ⟨hunksBefore.dropLast, by decide +kernel⟩)
  (.inr ⟨hunksAfter.dropLast, by decide +kernel⟩) (by decide +kernel) (by decide +kernel)
  (noIsland_of_check (by decide +kernel)) hunksTexts hunksRead _ (by decide +kernel) hunksRead_reads
  (diffClumps_total .debug (fromText hunksBefore) (fromText hunksAfter) 1).choose_spec
example := C102_source .debug .release .asciiOnly hunksBefore hunksAfter 1 (by decide) (fun _ => by decide) (.inr ⟨hunksBefore.dropLast, by decide +kernel⟩)
  (.inr ⟨hunksAfter.dropLast, by decide +kernel⟩) (by decide +kernel) (by decide +kernel) (by decide +kernel) (by decide +kernel)
  (noIsland_of_check (by decide +kernel)) hunksTexts hunksRead (by decide +kernel) hunksRead_reads
example := C102_marked .debug .release .asciiOnly hunksBefore hunksAfter 1 (by decide) (fun _ => by decide)
  (.inr ⟨hunksBefore.dropLast, by decide +kernel⟩) (.inr ⟨hunksAfter.dropLast, by decide +kernel⟩) (by decide +kernel)
  (by decide +kernel) (by decide +kernel) (by decide +kernel) hunksTexts hunksRead (by decide +kernel) hunksRead_reads
  (by decide +kernel) (fromText hunksBefore) (by decide +kernel) (by decide +kernel) nofun

end PwDiff
