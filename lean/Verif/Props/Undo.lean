import Verif.Proofs.Undo
import Verif.Props.Programs

/-! # C76–C78: a patch can always be taken back

A patch need not turn the old text into the new one (C24), but what it makes of the old text differs from the new one only
in a known way, and the reverse patch always restores the old text from it. -/

namespace PwDiff

open Sys

section

variable {T : Type} [DecidableEq T] [Item T] [LawfulItem T]

/-! ## C76 -/

/-- Applied to its own source, a patch leaves a text with as many items as `after`, every one of which is the item of
`after` at that place, or else an item of `before` left in place between two equal pairs.  The patch is recognised as
applied on that text, and in reverse it applies cleanly to it and restores the source. -/
theorem C76_undo (p q q' : Profile) (before after : List T) (context : Nat) (hctx : context ≤ 255)
    (hb : before.length ≤ maxLines) (ha : after.length ≤ maxLines) (cs : List (DiffClump T))
    (h : diffClumps p before after context = .ok cs) :
    ∃ text, (applyInto q cs before false).run = (.ok { clean := cs.length }, bytesOf text) ∧
      text.length = after.length ∧
      (∀ (k : Nat) (x : T), text[k]? = some x → after[k]? = some x ∨
        ∃ j k', k = k' + 1 ∧ before[j + 1]? = some x ∧ Hit before after j k' ∧ Hit before after (j + 2) (k' + 2)) ∧
      isAlreadyApplied q' cs text false = .ok true ∧
      (applyInto q' cs text true).run = (.ok { clean := cs.length }, bytesOf before) := by
  obtain ⟨hd, changes, hch, hd2⟩ := diffClumps_full hctx h
  obtain ⟨hr, hl, hback⟩ := hd.retarget
  refine ⟨patchedFrom before 0 0 cs, by rw [apply_to_source q hd hb ha, WM.run_emit], hl, patched_item hch hd2, ?_, ?_⟩
  · exact alreadyApplied_of_isDiff q' hb (by omega) hr
  · have := apply_to_source q' hr.swap (by omega) hb
    rw [Swap.applyAll, hback, List.length_map] at this
    rw [show (true : Bool) = !false from rfl, this, WM.run_emit]

/-- The same the other way round: what the patch makes of its target in reverse, it turns back into the target. -/
theorem C76_redo (p q q' : Profile) (before after : List T) (context : Nat) (hctx : context ≤ 255)
    (hb : before.length ≤ maxLines) (ha : after.length ≤ maxLines) (cs : List (DiffClump T))
    (h : diffClumps p before after context = .ok cs) :
    ∃ text, (applyInto q cs after true).run = (.ok { clean := cs.length }, bytesOf text) ∧
      text.length = before.length ∧
      isAlreadyApplied q' cs text true = .ok true ∧
      (applyInto q' cs text false).run = (.ok { clean := cs.length }, bytesOf after) := by
  have hd := (diffClumps_full hctx h).1.swap
  obtain ⟨hr, hl, hback⟩ := hd.retarget
  rw [List.map_map, show DiffClump.swap ∘ DiffClump.swap = (id : DiffClump T → DiffClump T) from rfl, List.map_id] at hback
  refine ⟨patchedFrom after 0 0 (cs.map DiffClump.swap), ?_, hl, ?_, ?_⟩
  · have := apply_to_source q hd ha hb
    rw [Swap.applyAll, List.length_map] at this
    rw [show (true : Bool) = !false from rfl, this, WM.run_emit]
  · have := alreadyApplied_of_isDiff q' ha (by omega) hr
    rwa [Swap.alreadyAll] at this
  · have := apply_to_source q' hr.swap (by omega) ha
    rw [List.map_map, show DiffClump.swap ∘ DiffClump.swap = (id : DiffClump T → DiffClump T) from rfl, List.map_id, hback] at this
    rw [this, WM.run_emit]

end

/-- A pair of files with a lost edit (`c` against `x`) and a recorded one (`e` removed). -/
def lostBefore : List Str := [ln 'a', ln 'b', ln 'c', ln 'd', ln 'e']
def lostAfter : List Str := [ln 'a', ln 'b', ln 'x', ln 'd']
def lostClumps : List (DiffClump Str) := [⟨(1, 0), ⟨3, [ln 'd', ln 'e']⟩, ⟨3, [ln 'd']⟩⟩]

example : diffClumps .debug lostBefore lostAfter 1 = .ok lostClumps := by decide +kernel
example : (applyInto .debug lostClumps lostBefore false).run =
      (.ok { clean := 1 }, bytesOf [ln 'a', ln 'b', ln 'c', ln 'd']) ∧
    (applyInto .debug lostClumps [ln 'a', ln 'b', ln 'c', ln 'd'] true).run = (.ok { clean := 1 }, bytesOf lostBefore) := by
  decide +kernel

/-! ## C77 -/

/-- The same for byte patches, if there is context and neither file is empty. -/
theorem C77_undo_bytes (p q q' : Profile) (before after : List UInt8) (context : Nat) (h1 : 1 ≤ context) (hctx : context ≤ 255)
    (hbne : before ≠ []) (hane : after ≠ []) (hsz : 2 * before.length + 2 * after.length < wordSize)
    (cs : List (DiffClump UInt8)) (h : diffClumps p before after context = .ok cs) :
    ∃ bytes, (byteApplyInto q cs before false).run = (.ok (), bytes) ∧ bytes.length = after.length ∧
      (∀ (k : Nat) (x : UInt8), bytes[k]? = some x → after[k]? = some x ∨
        ∃ j k', k = k' + 1 ∧ before[j + 1]? = some x ∧ Hit before after j k' ∧ Hit before after (j + 2) (k' + 2)) ∧
      byteAlreadyApplied q' bytes false cs = .ok true ∧
      (byteApplyInto q' cs bytes true).run = (.ok (), before) := by
  obtain ⟨hd, changes, hch, hd2⟩ := diffClumps_full hctx h
  obtain ⟨hr, hl, hback⟩ := hd.retarget
  have hst := diffClumps_starts h1 h
  refine ⟨patchedFrom before 0 0 cs, ?_, hl, patched_item hch hd2, ?_, ?_⟩
  · rw [byte_to_source q hd (by omega) (fun c hc => (hst c hc).1 hbne), WM.run_emit]
  · obtain ⟨b, e1, e2⟩ := byteAlreadyApplied_spec q' (patchedFrom before 0 0 cs) cs
    obtain ⟨skip, hr'⟩ := hr.diffed
    rw [e1, e2.2]
    intro c hc
    exact ⟨by rw [hl]; exact (hst c hc).2 hane, (hr'.stands c hc).2⟩
  · have := byte_to_source q' hr.swap (by omega) (by
      intro c hc
      obtain ⟨c', hc', rfl⟩ := List.mem_map.1 hc
      have := (hst c' hc').2 hane
      rw [hl]
      exact this)
    rw [byteApply_swap, hback] at this
    rw [show (true : Bool) = !false from rfl, this, WM.run_emit]

/-- The condition on the context cannot be dropped: without context the removal of the last byte is not taken back. -/
theorem C77_context_needed : ∃ cs, diffClumps .debug [1, 2] [1] 0 = .ok cs ∧
    (byteApplyInto .debug cs [1, 2] false).run = (.ok (), [1]) ∧ (byteApplyInto .debug cs [1] true).run = (.ok (), [1]) :=
  ⟨[⟨(0, 0), ⟨1, [2]⟩, ⟨1, []⟩⟩], by decide +kernel⟩

/-- A byte patch with a lost edit (3 against 9) and a recorded one (5 removed), applied and taken back. -/
example : ∃ cs, diffClumps .debug [1, 2, 3, 4, 5] [1, 2, 9, 4] 1 = .ok cs ∧
    (byteApplyInto .debug cs [1, 2, 3, 4, 5] false).run = (.ok (), [1, 2, 3, 4]) ∧
    (byteApplyInto .debug cs [1, 2, 3, 4] true).run = (.ok (), [1, 2, 3, 4, 5]) :=
  ⟨[⟨(1, 0), ⟨3, [4, 5]⟩, ⟨3, [4]⟩⟩], by decide +kernel⟩

/-! ## C78 -/

/-- What a patch makes of its source is again a list of lines. -/
theorem isLines_patched {p : Profile} {s t : Str} {changes : List Change} {cs : List (DiffClump Str)}
    (hch : changesOf p (splitInclusive s) (splitInclusive t) = .ok changes)
    (hd : Diffed (Skip changes) (splitInclusive s) (splitInclusive t) 0 0 cs (splitInclusive s).length (splitInclusive t).length) :
    IsLines (patchedFrom (splitInclusive s) 0 0 cs).flatten (patchedFrom (splitInclusive s) 0 0 cs) := by
  have hs := isLines_splitInclusive s
  have ht := isLines_splitInclusive t
  have hlen : (patchedFrom (splitInclusive s) 0 0 cs).length = (splitInclusive t).length := by
    have := hd.patched.1
    omega
  have mem : ∀ x ∈ patchedFrom (splitInclusive s) 0 0 cs, x ∈ splitInclusive t ∨ x ∈ splitInclusive s := by
    intro x hx
    obtain ⟨k, hk⟩ := List.getElem?_of_mem hx
    rcases patched_item hch hd k x hk with h | ⟨j, k', -, h, -⟩
    · exact .inl (List.mem_of_getElem? h)
    · exact .inr (List.mem_of_getElem? h)
  have inner : ∀ {u : Str} (_ : IsLines u (splitInclusive u)) (k : Nat) (x : Str), (splitInclusive u)[k]? = some x →
      k + 1 < (splitInclusive u).length → x.getLast? = some '\n' := by
    intro u hu k x hx hk
    apply hu.ended
    apply List.mem_of_getElem? (i := k)
    rw [List.getElem?_dropLast, if_pos (by omega), hx]
  refine ⟨rfl, ?_, ?_, ?_⟩
  · intro x hx
    rcases mem x hx with h | h
    · exact ht.nonempty x h
    · exact hs.nonempty x h
  · intro x hx
    rcases mem x hx with h | h
    · exact ht.inner x h
    · exact hs.inner x h
  · intro x hx
    obtain ⟨k, hk⟩ := List.getElem?_of_mem hx
    rw [List.getElem?_dropLast] at hk
    split at hk
    · next hlt =>
      rcases patched_item hch hd k x hk with h | ⟨j, k', -, h, -, y, hy, -⟩
      · exact inner ht k x h (by omega)
      · exact inner hs (j + 1) x h ((List.getElem?_eq_some_iff.1 hy).1)
    · cases hk

/-- For any two text files: `pw_diff`, `pw_patch` and `pw_patch --reverse` all succeed.  The patched file has as many lines
as the second file, each of which is the line of the second file with that number or a line of the first file left between
two equal pairs; the reverse run always restores the first file.  No other entry is changed. -/
theorem C78_session (p q : Profile) (temp patch before after : Path) (context : Nat) (w : World) (s t : Str)
    (hw : Fresh w patch temp) (hctx : context ≤ 255) (hub : IsUtf8 before) (hua : IsUtf8 after)
    (hb : w.fs.contentAt before = some ⟨s.bytes, false⟩) (ha : w.fs.contentAt after = some ⟨t.bytes, false⟩)
    (hsb : (splitInclusive s).length ≤ maxLines) (hst : (splitInclusive t).length ≤ maxLines) :
    ∃ (patchContent : List UInt8) (u : Str), session p q temp patch before after context w =
      ((.exited 0, { w with stdout := patchContent }),
       (.exited 0, { w with fs := (w.fs.set (w.fs.entry patch) (some (.file patchContent))).set (w.fs.entry before) (some (.file u.bytes)) }),
       (.exited 0, { w with fs := (w.fs.set (w.fs.entry patch) (some (.file patchContent))).set (w.fs.entry before) (some (.file s.bytes)) })) ∧
      (splitInclusive u).length = (splitInclusive t).length ∧
      ∀ (k : Nat) (x : Str), (splitInclusive u)[k]? = some x → (splitInclusive t)[k]? = some x ∨
        ∃ j k', k = k' + 1 ∧ (splitInclusive s)[j + 1]? = some x ∧ Hit (splitInclusive s) (splitInclusive t) j k' ∧
          Hit (splitInclusive s) (splitInclusive t) (j + 2) (k' + 2) := by
  obtain ⟨cs, hcs⟩ := diffClumps_total p (splitInclusive s) (splitInclusive t) context
  have hd := diffNew_text hw.faults p context hb ha hcs
  have hsz : ∀ n, n ≤ maxLines → n < wordSize := by
    intro n h
    simp only [maxLines, wordSize] at *
    omega
  obtain ⟨hdiff, changes, hch, hd2⟩ := diffClumps_full hctx hcs
  obtain ⟨hr, hl, hback⟩ := hdiff.retarget
  have hlines := isLines_unique (isLines_patched hch hd2) (isLines_splitInclusive _)
  generalize hu : (patchedFrom (splitInclusive s) 0 0 cs).flatten = u at hlines
  change Str at u
  have hbytes : ∀ u : Str, bytesOf (splitInclusive u) = u.bytes := by
    intro u
    show (splitInclusive u).flatMap Str.bytes = _
    rw [flatMap_bytes, flatten_splitInclusive]
  have e1 : (applyInto q cs (splitInclusive s) false).run = (.ok { clean := cs.length }, u.bytes) := by
    rw [apply_to_source q hdiff hsb hst, WM.run_emit, hlines, hbytes]
  have e2 : (applyInto q cs (splitInclusive u) true).run = (.ok { clean := cs.length }, s.bytes) := by
    have := apply_to_source q hr.swap (by omega) hsb
    rw [Swap.applyAll, hback, List.length_map, hlines, hbytes] at this
    rw [show (true : Bool) = !false from rfl, this, WM.run_emit]
  refine ⟨_, u, session_change p q hw hd (clumps_inRange hctx hcs (hsz _ hsb) (hsz _ hst))
    (by intro path h; simp only [Diff.paths, List.mem_cons, List.not_mem_nil, or_false] at h; rcases h with rfl | rfl <;> assumption)
    rfl hb ⟨s, _, rfl, e1⟩ ⟨u, _, rfl, e2⟩, ?_, ?_⟩
  · rw [← hlines, hl]
  · rw [← hlines]
    exact patched_item hch hd2

/-- The same for two files of which at least one is not text, with context (at least 1) and both files not empty. -/
theorem C78_session_bytes (p q : Profile) (temp patch before after : Path) (context : Nat) (w : World) (b a : List UInt8)
    (hw : Fresh w patch temp) (h1 : 1 ≤ context) (hctx : context ≤ 255) (hub : IsUtf8 before) (hua : IsUtf8 after)
    (hb : w.fs.contentAt before = some ⟨b, false⟩) (ha : w.fs.contentAt after = some ⟨a, false⟩)
    (hn : ¬ (IsUtf8 b ∧ IsUtf8 a)) (hbne : b ≠ []) (hane : a ≠ [])
    (hsz : 2 * b.length + 2 * a.length < wordSize) :
    ∃ patchContent u : List UInt8, session p q temp patch before after context w =
      ((.exited 0, { w with stdout := patchContent }),
       (.exited 0, { w with fs := (w.fs.set (w.fs.entry patch) (some (.file patchContent))).set (w.fs.entry before) (some (.file u)) }),
       (.exited 0, { w with fs := (w.fs.set (w.fs.entry patch) (some (.file patchContent))).set (w.fs.entry before) (some (.file b)) })) ∧
      u.length = a.length ∧
      ∀ (k : Nat) (x : UInt8), u[k]? = some x → a[k]? = some x ∨
        ∃ j k', k = k' + 1 ∧ b[j + 1]? = some x ∧ Hit b a j k' ∧ Hit b a (j + 2) (k' + 2) := by
  obtain ⟨cs, hcs⟩ := diffClumps_total p b a context
  have hd := diffNew_bytes hw.faults p context hb ha hn hcs
  obtain ⟨u, e1, e2, e3, -, e4⟩ := C77_undo_bytes p q q b a context h1 hctx hbne hane hsz cs hcs
  exact ⟨_, u, session_change p q hw hd (clumps_inRange hctx hcs (by omega) (by omega))
    (by intro path h; simp only [Diff.paths, List.mem_cons, List.not_mem_nil, or_false] at h; rcases h with rfl | rfl <;> assumption)
    rfl hb e1 e4, e2, e3⟩

/-- The two kinds of content: text, and bytes that are not UTF-8. -/
example : ¬ (IsUtf8 [255] ∧ IsUtf8 [1, 2]) := fun h => not_utf8_ff h.1

example := C76_undo .debug .release .debug [ln 'a', ln 'b', ln 'c', ln 'd'] [ln 'a', ln 'x', ln 'y', ln 'c', ln 'd'] 1 (by decide) (by decide) (by decide)
  [⟨(1, 1), ⟨0, [ln 'a', ln 'b', ln 'c']⟩, ⟨0, [ln 'a', ln 'x', ln 'y', ln 'c']⟩⟩] (by decide +kernel)
example := C77_undo_bytes .debug .release .debug [1, 2, 3, 4] [1, 8, 9, 3, 4] 1 (by decide) (by decide) (by decide) (by decide) (by decide)
  [⟨(1, 1), ⟨0, [1, 2, 3]⟩, ⟨0, [1, 8, 9, 3]⟩⟩] (by decide +kernel)

example (p q : Profile) (w : World) (hw : Fresh w [67] [84])
    (hb : w.fs.contentAt [65] = some ⟨Str.bytes "a\nb\nx\nc\nd\n".toList, false⟩)
    (ha : w.fs.contentAt [66] = some ⟨Str.bytes "a\nb\ny\nc\n".toList, false⟩) :=
  C78_session p q [84] [67] [65] [66] 3 w "a\nb\nx\nc\nd\n".toList "a\nb\ny\nc\n".toList hw (by decide) ⟨['A'], by decide⟩
    ⟨['B'], by decide⟩ hb ha (by decide +kernel) (by decide +kernel)

end PwDiff
