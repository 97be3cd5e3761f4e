import Verif.Proofs.Written
import Verif.Props.Undo
import Verif.Model.Unified

/-! # C100: the lines of a patched file -/

namespace PwDiff

open ChangeBasics TextClump

/-- A marker line: seven times the same character. -/
def marker (c : Char) : Str := List.replicate 7 c ++ ['\n']

/-- The line is one of the three markers put around clumps that failed. -/
def IsMarker (line : Str) : Prop := line = marker '<' ∨ line = marker '=' ∨ line = marker '>'

/-- The line is one of the file `l` or of the patch. -/
def FromInput {T : Type} (l : List T) (cs : List (DiffClump T)) (line : T) : Prop :=
  line ∈ l ∨ ∃ c ∈ cs, line ∈ c.before.items ∨ line ∈ c.after.items

/-- The full statement of C100: every line of the patched text is a line of the file, a line of the patch, or a marker. -/
def C100_statement : Prop :=
  ∀ (p : Profile) (s t u : Str) (context : Nat) (cs : List (DiffClump Str)), context ≤ 255 →
    diffClumps p (fromText s) (fromText t) context = .ok cs → ∀ (st : Statistics) (out : List UInt8),
    (applyInto p cs (fromText u) false).run = (.ok st, out) →
    ∃ v : Str, out = v.bytes ∧ ∀ line ∈ fromText v, FromInput (fromText u) cs line ∨ IsMarker line

/-- It fails: the patch takes the newline at the end of a file away; applied (cleanly) to the file with a line added at its end,
it joins the two last lines. -/
theorem C100_refuted : ¬ C100_statement := by
  intro h
  obtain ⟨v, h1, h2⟩ := h .debug ['a', '\n', 'b', '\n'] ['a', '\n', 'b'] ['a', '\n', 'b', '\n', 'c', '\n'] 1
    [⟨(1, 0), ⟨0, [ln 'a', ln 'b']⟩, ⟨0, [ln 'a', ['b']]⟩⟩] (by decide) (by decide +kernel) { clean := 1 }
    (Str.bytes ['a', '\n', 'b', 'c', '\n']) (by decide +kernel)
  obtain rfl := Str.bytes_inj h1
  have := h2 ['b', 'c', '\n'] (by decide +kernel)
  rcases this with (h | h) | h
  · revert h; decide +kernel
  · revert h; decide +kernel
  · revert h; unfold IsMarker; decide +kernel

/-- A clump that failed is joined with the markers around it in the same way. -/
example : ∃ cs, diffClumps .debug (fromText ['a']) (fromText ['b']) 1 = .ok cs ∧
    (applyInto .debug cs (fromText ['c', '\n']) false).run =
      (.ok { failed := 1 }, Str.bytes ("<<<<<<<\na=======\nb>>>>>>>\nc\n".toList)) :=
  ⟨[⟨(0, 0), ⟨0, [['a']]⟩, ⟨0, [['b']]⟩⟩], by decide +kernel, by decide +kernel⟩

theorem marker_bytes : (marker '<').bytes = markerBefore ∧ (marker '=').bytes = markerMiddle ∧
    (marker '>').bytes = markerAfter := by decide +kernel

theorem Written.text {P : Str → Prop} {marked : Prop} {bs : List UInt8} (h : Written marked P bs) :
    ∃ text : List Str, bs = Str.bytes text.flatten ∧ ∀ line ∈ text, P line ∨ marked ∧ IsMarker line := by
  obtain ⟨pieces, rfl, h⟩ := h
  induction pieces with
  | nil => exact ⟨[], rfl, nofun⟩
  | cons b pieces ih =>
    obtain ⟨text, e, ht⟩ := ih fun b hb => h b (by simp [hb])
    have : ∃ x : Str, b = x.bytes ∧ (P x ∨ marked ∧ IsMarker x) := by
      rcases h b (by simp) with ⟨x, hx, rfl⟩ | ⟨hm, rfl | rfl | rfl⟩
      · exact ⟨x, rfl, .inl hx⟩
      · exact ⟨_, marker_bytes.1.symm, .inr ⟨hm, .inl rfl⟩⟩
      · exact ⟨_, marker_bytes.2.1.symm, .inr ⟨hm, .inr (.inl rfl)⟩⟩
      · exact ⟨_, marker_bytes.2.2.symm, .inr ⟨hm, .inr (.inr rfl)⟩⟩
    obtain ⟨x, rfl, hx⟩ := this
    refine ⟨x :: text, ?_, ?_⟩
    · rw [List.flatten_cons, e]
      exact (List.flatMap_append ..).symm
    · intro line hl
      rcases List.mem_cons.1 hl with rfl | hl
      · exact hx
      · exact ht line hl

theorem WM.Writes.run {α : Type} {Q : List UInt8 → Prop} {m : WM α} {R : α → List UInt8 → Prop} (h : WM.Writes Q m R) :
    Q m.run.2 ∧ ∀ a, m.run.1 = .ok a → R a m.run.2 := by
  obtain ⟨bs, h1, h2, h3⟩ := h.at_ []
  have : m.run.2 = bs := by
    show (m ⟨[], none⟩).2.out = bs
    rw [h1]; rfl
  rw [this]
  exact ⟨h2, h3⟩

/-- A line, ended by a newline. -/
def EndedLine (line : Str) : Prop := ∃ x, line = x ++ ['\n'] ∧ '\n' ∉ x

theorem isMarker_ended {line : Str} (h : IsMarker line) : EndedLine line := by
  rcases h with rfl | rfl | rfl
  · exact ⟨_, rfl, by decide⟩
  · exact ⟨_, rfl, by decide⟩
  · exact ⟨_, rfl, by decide⟩

theorem fromText_of_ended {text : List Str} (h : ∀ line ∈ text, EndedLine line) : fromText text.flatten = text := by
  refine (isLines_unique (s := text.flatten) ⟨rfl, ?_, ?_, ?_⟩ (isLines_splitInclusive _)).symm
  · intro x hx
    obtain ⟨y, rfl, -⟩ := h x hx
    simp
  · intro x hx
    obtain ⟨y, rfl, hy⟩ := h x hx
    simpa using hy
  · intro x hx
    obtain ⟨y, rfl, -⟩ := h x (List.dropLast_subset _ hx)
    simp

theorem ended_of_text {s : Str} (h : s = [] ∨ s.getLast? = some '\n') : ∀ line ∈ fromText s, EndedLine line := by
  have hl := isLines_splitInclusive s
  intro line hm
  have hne := hl.nonempty line hm
  have hin := hl.inner line hm
  have hnil : splitInclusive s ≠ [] := List.ne_nil_of_mem hm
  have hlast : line.getLast? = some '\n' := by
    rw [fromText, ← List.dropLast_concat_getLast hnil] at hm
    rcases List.mem_append.1 hm with h1 | h1
    · exact hl.ended line h1
    · rw [List.mem_singleton] at h1
      have e : s = (splitInclusive s).dropLast.flatten ++ line := by
        have := congrArg List.flatten (List.dropLast_concat_getLast (l := splitInclusive s) hnil)
        rw [List.flatten_append, hl.joined] at this
        rw [h1]
        simpa using this.symm
      rcases h with rfl | h
      · have := (List.append_eq_nil_iff.1 e.symm).2
        exact absurd this hne
      · rw [e, List.getLast?_append, List.getLast?_eq_some_getLast hne] at h
        rw [List.getLast?_eq_some_getLast hne]
        exact h
  refine ⟨line.dropLast, ?_, hin⟩
  have := List.dropLast_concat_getLast hne
  rw [List.getLast?_eq_some_getLast hne] at hlast
  rw [Option.some.inj hlast] at this
  exact this.symm

/-! ## Any patch -/

theorem linesOf_diffClump (p : Profile) {T : Type} (c : DiffClump T) (reverse : Bool) :
    LinesOf p (fun x => x ∈ c.before.items ∨ x ∈ c.after.items) c reverse := by
  intro range ls h x hx
  have : x ∈ (c.beforeSide reverse).items := by
    change (c.beforeSide reverse).itemsIn p range = _ at h
    unfold Snippet.itemsIn at h
    cases range with
    | none => rw [Outcome.ok_inj h]; exact hx
    | some r =>
      have key : ∀ o : Outcome Unit, (o >>= fun _ => slice (c.beforeSide reverse).items r.start r.fin) = .ok ls →
          x ∈ (c.beforeSide reverse).items := by
        intro o ho
        cases o with
        | ok _ =>
          change slice _ _ _ = _ at ho
          unfold slice at ho
          split at ho
          · rw [← Outcome.ok_inj ho] at hx
            exact List.mem_of_mem_drop (List.mem_of_mem_take hx)
          · cases ho
        | _ => cases ho
      cases p with
      | release => exact key (.ok ()) h
      | debug =>
        simp only at h
        revert h
        generalize uadd .debug (c.beforeSide reverse).len (c.beforeSide reverse).start = o
        intro h
        cases o with
        | ok m => exact key _ h
        | _ => cases h
  cases reverse with
  | false => exact .inl this
  | true => exact .inr this

/-- What holds for every patch, also hand-made, every file, both directions, and however it ends: what is written is put
together from lines of the file, lines of the patch and markers; there are markers only if a clump failed. -/
theorem C100_pieces (p : Profile) (cs : List (DiffClump Str)) (l : List Str) (reverse : Bool) (r : Outcome Statistics)
    (out : List UInt8) (h : (applyInto p cs l reverse).run = (r, out)) :
    ∃ text : List Str, out = Str.bytes text.flatten ∧
      ∀ line ∈ text, FromInput l cs line ∨ IsMarker line ∧ ∀ st, r = .ok st → 0 < st.failed := by
  have hP : ∀ reverse', ∀ c ∈ cs, LinesOf p (FromInput l cs) c reverse' := fun reverse' c hc range ls e x hx =>
    .inr ⟨c, hc, linesOf_diffClump p c reverse' range ls e x hx⟩
  have := (writes_applyInto p l cs (P := FromInput l cs) (fun x hx => .inl hx) (hP reverse) (hP (!reverse))).run
  rw [h] at this
  cases r with
  | ok st =>
    obtain ⟨text, e, ht⟩ := (this.2 st rfl).text
    refine ⟨text, e, fun line hl => ?_⟩
    rcases ht line hl with h | ⟨h1, h2⟩
    · exact .inl h
    · exact .inr ⟨h2, fun st' e => by rw [← Outcome.ok_inj e]; exact h1⟩
  | _ =>
    obtain ⟨text, e, ht⟩ := this.1.text
    refine ⟨text, e, fun line hl => ?_⟩
    rcases ht line hl with h | ⟨h1, h2⟩
    · exact .inl h
    · exact .inr ⟨h2, fun st' e => by cases e⟩

/-- So every line of what is written is a line of the file, a line of the patch or a marker, if all the lines of the file and
the patch end in a newline. -/
theorem C100_partial (p : Profile) (cs : List (DiffClump Str)) (l : List Str) (reverse : Bool) (r : Outcome Statistics)
    (out : List UInt8) (h : (applyInto p cs l reverse).run = (r, out)) (hend : ∀ line, FromInput l cs line → EndedLine line) :
    ∃ v : Str, out = v.bytes ∧
      ∀ line ∈ fromText v, FromInput l cs line ∨ IsMarker line ∧ ∀ st, r = .ok st → 0 < st.failed := by
  obtain ⟨text, e, ht⟩ := C100_pieces p cs l reverse r out h
  refine ⟨text.flatten, e, ?_⟩
  rw [fromText_of_ended]
  · exact ht
  · intro line hl
    rcases ht line hl with h | ⟨h, -⟩
    · exact hend line h
    · exact isMarker_ended h

/-- In particular the statement holds for files that end in a newline (or are empty). -/
theorem C100_files (p q : Profile) (s t u : Str) (context : Nat) (cs : List (DiffClump Str))
    (h : diffClumps p (fromText s) (fromText t) context = .ok cs) (hs : s = [] ∨ s.getLast? = some '\n')
    (ht : t = [] ∨ t.getLast? = some '\n') (hu : u = [] ∨ u.getLast? = some '\n') (reverse : Bool) (r : Outcome Statistics)
    (out : List UInt8) (hr : (applyInto q cs (fromText u) reverse).run = (r, out)) :
    ∃ v : Str, out = v.bytes ∧
      ∀ line ∈ fromText v, FromInput (fromText u) cs line ∨ IsMarker line ∧ ∀ st, r = .ok st → 0 < st.failed := by
  refine C100_partial q cs _ reverse r out hr ?_
  obtain ⟨changes, ccs, -, -, -, -, e⟩ := diffClumps_spec p (fromText s) (fromText t) context
  obtain rfl := Outcome.ok_inj (e.symm.trans h)
  rintro line (h | ⟨c, hc, h⟩)
  · exact ended_of_text hu line h
  · obtain ⟨cc, -, rfl⟩ := List.mem_map.1 hc
    rcases h with h | h
    · exact ended_of_text hs line (List.mem_of_mem_drop (List.mem_of_mem_take h))
    · exact ended_of_text ht line (List.mem_of_mem_drop (List.mem_of_mem_take h))

/-- And whatever the files end in, if the patch is applied to its own source. -/
theorem C100_own (p q : Profile) (s t : Str) (context : Nat) (hctx : context ≤ 255) (cs : List (DiffClump Str))
    (h : diffClumps p (fromText s) (fromText t) context = .ok cs) (hb : (fromText s).length ≤ maxLines)
    (ha : (fromText t).length ≤ maxLines) :
    ∃ v : Str, (applyInto q cs (fromText s) false).run = (.ok { clean := cs.length }, v.bytes) ∧
      ∀ line ∈ fromText v, line ∈ fromText t ∨ line ∈ fromText s := by
  obtain ⟨hd, changes, hch, hd2⟩ := diffClumps_full hctx h
  have hl := isLines_unique (isLines_patched hch hd2) (isLines_splitInclusive _)
  refine ⟨(patchedFrom (splitInclusive s) 0 0 cs).flatten, ?_, ?_⟩
  · rw [apply_to_source q hd hb ha, WM.run_emit]
    show (_, (patchedFrom (splitInclusive s) 0 0 cs).flatMap Str.bytes) = _
    rw [flatMap_bytes]
  · intro line hm
    rw [show fromText _ = _ from hl.symm] at hm
    obtain ⟨k, hk⟩ := List.getElem?_of_mem hm
    rcases patched_item hch hd2 k line hk with h | ⟨j, k', -, h, -⟩
    · exact .inl (List.mem_of_getElem? h)
    · exact .inr (List.mem_of_getElem? h)

example := C100_own .debug .release "a\nb\nc".toList "a\nX\nY\nc".toList 1 (by decide)
  [⟨(1, 1), ⟨0, [ln 'a', ln 'b', ['c']]⟩, ⟨0, [ln 'a', ln 'X', ln 'Y', ['c']]⟩⟩] (by decide +kernel) (by decide +kernel) (by decide +kernel)
example := C100_files .debug .release "a\nb\nc\n".toList "a\nX\nY\nc\n".toList "q\n".toList 1
  [⟨(1, 1), ⟨0, [ln 'a', ln 'b', ln 'c']⟩, ⟨0, [ln 'a', ln 'X', ln 'Y', ln 'c']⟩⟩] (by decide +kernel) (.inr (by decide +kernel))
  (.inr (by decide +kernel)) (.inr (by decide +kernel)) false _ _ rfl

/-- The same as `C100_pieces` for hunks of unified diffs. -/
theorem C100_unified (p : Profile) (cs : List UnifiedDiffClump) (l : List Str) (reverse : Bool) (r : Outcome Statistics)
    (out : List UInt8) (h : (applyInto p cs l reverse).run = (r, out)) :
    ∃ text : List Str, out = Str.bytes text.flatten ∧
      ∀ line ∈ text, (line ∈ l ∨ ∃ c ∈ cs, line ∈ c.beforeLines ∨ line ∈ c.afterLines) ∨
        IsMarker line ∧ ∀ st, r = .ok st → 0 < st.failed := by
  have hP : ∀ reverse', ∀ c ∈ cs, LinesOf p (fun line => line ∈ l ∨ ∃ c ∈ cs, line ∈ c.beforeLines ∨ line ∈ c.afterLines) c reverse' := by
    intro reverse' c hc range ls e x hx
    refine .inr ⟨c, hc, ?_⟩
    have : x ∈ (if reverse' then c.afterLines else c.beforeLines) := by
      cases range with
      | none => rw [Outcome.ok_inj (show Outcome.ok _ = _ from e)]; exact hx
      | some r =>
        change slice (if reverse' then c.afterLines else c.beforeLines) _ _ = _ at e
        generalize (if reverse' then c.afterLines else c.beforeLines) = side at e
        unfold slice at e
        split at e
        · rw [← Outcome.ok_inj e] at hx
          exact List.mem_of_mem_drop (List.mem_of_mem_take hx)
        · cases e
    cases reverse' with
    | false => exact .inl this
    | true => exact .inr this
  have := (writes_applyInto p l cs (P := fun line => line ∈ l ∨ ∃ c ∈ cs, line ∈ c.beforeLines ∨ line ∈ c.afterLines)
    (fun x hx => .inl hx) (hP reverse) (hP (!reverse))).run
  rw [h] at this
  cases r with
  | ok st =>
    obtain ⟨text, e, ht⟩ := (this.2 st rfl).text
    refine ⟨text, e, fun line hl => ?_⟩
    rcases ht line hl with h | ⟨h1, h2⟩
    · exact .inl h
    · exact .inr ⟨h2, fun st' e => by rw [← Outcome.ok_inj e]; exact h1⟩
  | _ =>
    obtain ⟨text, e, ht⟩ := this.1.text
    refine ⟨text, e, fun line hl => ?_⟩
    rcases ht line hl with h | ⟨h1, h2⟩
    · exact .inl h
    · exact .inr ⟨h2, fun st' e => by cases e⟩

/-! ## A case -/

/-- One clump applies, the other one fails: lines of the file, of the patch and markers. -/
example : (applyInto .debug [(⟨(0, 0), ⟨0, [ln 'a']⟩, ⟨0, [ln 'b']⟩⟩ : DiffClump Str), ⟨(0, 0), ⟨2, [ln 'x']⟩, ⟨2, [ln 'y']⟩⟩]
    [ln 'a', ln 'c', ln 'd', ln 'e'] false).run =
    (.ok { clean := 1, failed := 1 }, Str.bytes "b\n<<<<<<<\nx\n=======\ny\n>>>>>>>\nc\nd\ne\n".toList) := by decide +kernel
example : ∀ line, FromInput [ln 'a', ln 'c', ln 'd', ln 'e'] [⟨(0, 0), ⟨0, [ln 'a']⟩, ⟨0, [ln 'b']⟩⟩, ⟨(0, 0), ⟨2, [ln 'x']⟩, ⟨2, [ln 'y']⟩⟩] line →
    EndedLine line := by
  intro line h
  have : ∃ c, line = ln c ∧ c ≠ '\n' := by
    simp only [FromInput, List.mem_cons, List.not_mem_nil, or_false, exists_eq_or_imp, exists_eq_left] at h
    rcases h with (h | h | h | h) | (h | h) | (h | h) <;> exact ⟨_, h, by decide⟩
  obtain ⟨c, rfl, hc⟩ := this
  exact ⟨[c], rfl, by simpa using hc.symm⟩

/-- A hunk applied. -/
example : (applyInto .debug [(⟨⟨⟨0, 1⟩, ⟨0, 1⟩⟩, [ln 'a'], [ln 'b'], (0, 0), 3⟩ : UnifiedDiffClump)] [ln 'a', ln 'c'] false).run =
    (.ok { clean := 1 }, Str.bytes "b\nc\n".toList) := by decide +kernel

example := C100_pieces .debug [(⟨(0, 0), ⟨0, [ln 'a']⟩, ⟨0, [ln 'b']⟩⟩ : DiffClump Str), ⟨(0, 0), ⟨3, [ln 'x']⟩, ⟨3, [ln 'y']⟩⟩]
    [ln 'c', ln 'a', ln 'd'] false (.ok { fuzzy := 1, failed := 1 }) (Str.bytes "c\nb\n<<<<<<<\nx\n=======\ny\n>>>>>>>\nd\n".toList) (by decide +kernel)

end PwDiff
