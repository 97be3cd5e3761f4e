import Verif.Props.Undo

/-! # Series of patches: what the diff made between two states of a file does to the file -/

namespace PwDiff

/-- What the diff, read from a patch file, does: forth from `old` to `new`, and in reverse back; `none` is no file. -/
structure LeadsTo (q q' : Profile) (d : Diff) (file : Path) (old new : Option (List UInt8)) : Prop where
  forth : ∀ (temp patch : Path) (w : World), w.faults = [] → HoldsDiff w.fs patch d → w.fs.node (w.fs.entry temp) = none →
    w.fs.node (w.fs.entry file) = old.map .file →
    (pwPatch q temp patch false).run w = (.exited 0, { w with fs := w.fs.set (w.fs.entry file) (new.map .file) })
  back : ∀ (temp patch : Path) (w : World), w.faults = [] → HoldsDiff w.fs patch d → w.fs.node (w.fs.entry temp) = none →
    w.fs.node (w.fs.entry file) = new.map .file →
    (pwPatch q' temp patch true).run w = (.exited 0, { w with fs := w.fs.set (w.fs.entry file) (old.map .file) })

theorem LeadsTo.change {q q' : Profile} {d : Diff} {file : Path} {b u : List UInt8} (hc : d.changed = some file)
    (h1 : PatchedContent q false d b u) (h2 : PatchedContent q' true d u b) : LeadsTo q q' d file (some b) (some u) :=
  ⟨fun temp patch w hf hd ht hw => C46_normal q temp patch file false w d hd hc hf ht (FS.contentAt_of_file hw) h1,
   fun temp patch w hf hd ht hw => C46_normal q' temp patch file true w d hd hc hf ht (FS.contentAt_of_file hw) h2⟩

theorem LeadsTo.add {q q' : Profile} {d : Diff} {file : Path} {a : List UInt8} (hc : d.creates false = some (file, a))
    (hd : d.deletes true = some file) : LeadsTo q q' d file none (some a) :=
  ⟨fun temp patch w hf hh _ hw => (C47_normal q temp patch file false w d hh hf).1 a hc hw,
   fun temp patch w hf hh _ hw => (C47_normal q' temp patch file true w d hh hf).2 hd (by rw [hw]; nofun) (by rw [hw]; nofun)⟩

theorem LeadsTo.remove {q q' : Profile} {d : Diff} {file : Path} {b : List UInt8} (hc : d.creates true = some (file, b))
    (hd : d.deletes false = some file) : LeadsTo q q' d file (some b) none :=
  ⟨fun temp patch w hf hh _ hw => (C47_normal q temp patch file false w d hh hf).2 hd (by rw [hw]; nofun) (by rw [hw]; nofun),
   fun temp patch w hf hh _ hw => (C47_normal q' temp patch file true w d hh hf).1 b hc hw⟩

/-- Items that are those of `after`, or are left of `before` between two equal pairs. -/
theorem eq_of_noIsland {T : Type} {before after u : List T} (hl : u.length = after.length)
    (hu : ∀ (k : Nat) (x : T), u[k]? = some x → after[k]? = some x ∨
      ∃ j k', k = k' + 1 ∧ before[j + 1]? = some x ∧ Hit before after j k' ∧ Hit before after (j + 2) (k' + 2))
    (hi : NoIsland before after) : u = after := by
  refine List.ext_getElem? fun k => ?_
  cases hk : u[k]? with
  | none =>
    rw [List.getElem?_eq_none_iff] at hk
    rw [eq_comm, List.getElem?_eq_none_iff, ← hl]
    exact hk
  | some x =>
    rcases hu k x hk with h | ⟨j, k', rfl, h1, h2, h3⟩
    · exact h.symm
    · obtain ⟨y, h4, h5⟩ := hi _ _ h2 h3
      rw [h1] at h4
      cases h4
      exact h5.symm

/-- A series is one of text files, or one of files that are not. -/
inductive SeriesKind where
  | text
  | bytes

/-- Contents that can be diffed: not too large, and text or not empty. -/
def SeriesKind.Fits : SeriesKind → List UInt8 → Prop
  | .text, b => ∃ s : Str, b = s.bytes ∧ (splitInclusive s).length ≤ maxLines
  | .bytes, b => b ≠ [] ∧ 4 * b.length < wordSize

/-- Versions of the file: those of bytes are not text. -/
def SeriesKind.Version (kind : SeriesKind) (b : List UInt8) : Prop := kind.Fits b ∧ match kind with
  | .text => True
  | .bytes => ¬ IsUtf8 b

/-- The numbers of context items that can be used. -/
def SeriesKind.Context : SeriesKind → Nat → Prop
  | .text, n => n ≤ 255
  | .bytes, n => 1 ≤ n ∧ n ≤ 255

/-- No single differing pair of items stands between two equal pairs. -/
def SeriesKind.NoIsland : SeriesKind → List UInt8 → List UInt8 → Prop
  | .text, b, a => ∀ s t : Str, b = s.bytes → a = t.bytes → PwDiff.NoIsland (splitInclusive s) (splitInclusive t)
  | .bytes, b, a => PwDiff.NoIsland b a

/-- Between a file as it is and its next version `pw_diff` makes a diff that leads from the one to, in general nearly, the other. -/
theorem diff_leads (p q q' : Profile) (kind : SeriesKind) {file after : Path} {context : Nat} {w : World} {old new : Option (List UInt8)}
    (hf : w.faults = []) (huf : IsUtf8 file) (hua : IsUtf8 after) (hk : kind.Context context)
    (hold : w.fs.node (w.fs.entry file) = old.map .file) (hnew : w.fs.node (w.fs.entry after) = new.map .file)
    (hF : ∀ b, old = some b → kind.Fits b) (hV : ∀ a, new = some a → kind.Version a) (hne : old ≠ none ∨ new ≠ none) :
    ∃ d u, Diff.new p file after context w = (.ok (some d), w) ∧ d.InRange ∧ (∀ path ∈ d.paths, IsUtf8 path) ∧
      LeadsTo q q' d file old u ∧ u.isSome = new.isSome ∧ (∀ b, u = some b → kind.Fits b) ∧
      ((∀ b a, old = some b → new = some a → kind.NoIsland b a) → u = new) := by
  obtain ⟨o, e1, e2, e3⟩ := C43_variant p file after context w hf
  match old, new with
  | none, none => simp at hne
  | none, some a =>
    have ha := FS.contentAt_of_file (c := a) hnew
    have hcb := FS.contentAt_none hold
    rw [hcb, ha] at e2
    cases o with
    | none => simp at e2
    | some d =>
      have hm := e3 d rfl
      have key : d.creates false = some (file, a) ∧ d.deletes true = some file ∧ d.InRange ∧ ∀ path ∈ d.paths, IsUtf8 path := by
        cases d with
        | textAdd d =>
          obtain ⟨h1, -, s, h2, h3⟩ := hm
          rw [ha] at h2
          obtain rfl : a = s.bytes := by cases h2; rfl
          refine ⟨?_, by simp [Diff.deletes, h1], trivial, by simpa [Diff.paths, h1] using huf⟩
          simp only [Diff.creates, Bool.false_eq_true, if_false]
          rw [h1, h3, flatMap_bytes, flatten_splitInclusive]
        | byteAdd d =>
          obtain ⟨h1, -, -, h2, -⟩ := hm
          rw [ha] at h2
          obtain rfl : a = d.bytes := by cases h2; rfl
          refine ⟨?_, by simp [Diff.deletes, h1], trivial, by simpa [Diff.paths, h1] using huf⟩
          simp only [Diff.creates, Bool.false_eq_true, if_false]
          rw [h1]
        | textChange d => obtain ⟨-, -, s, t, h, -⟩ := hm; rw [hcb] at h; cases h
        | byteChange d => obtain ⟨-, -, -, s, t, h, -⟩ := hm; rw [hcb] at h; cases h
        | textRemove d => obtain ⟨-, -, s, h, -⟩ := hm; rw [hcb] at h; cases h
        | byteRemove d => obtain ⟨-, -, -, h, -⟩ := hm; rw [hcb] at h; cases h
      obtain ⟨k1, k2, k3, k4⟩ := key
      exact ⟨d, some a, e1, k3, k4, .add k1 k2, rfl, fun b h => (hV b h).1, fun _ => rfl⟩
  | some b, none =>
    have hb := FS.contentAt_of_file (c := b) hold
    have hca := FS.contentAt_none hnew
    rw [hb, hca] at e2
    cases o with
    | none => simp at e2
    | some d =>
      have hm := e3 d rfl
      have key : d.deletes false = some file ∧ d.creates true = some (file, b) ∧ d.InRange ∧ ∀ path ∈ d.paths, IsUtf8 path := by
        cases d with
        | textRemove d =>
          obtain ⟨h1, -, s, h2, h3⟩ := hm
          rw [hb] at h2
          obtain rfl : b = s.bytes := by cases h2; rfl
          refine ⟨by simp [Diff.deletes, h1], ?_, trivial, by simpa [Diff.paths, h1] using huf⟩
          simp only [Diff.creates, if_true]
          rw [h1, h3, flatMap_bytes, flatten_splitInclusive]
        | byteRemove d =>
          obtain ⟨h1, -, -, h2, -⟩ := hm
          rw [hb] at h2
          obtain rfl : b = d.bytes := by cases h2; rfl
          refine ⟨by simp [Diff.deletes, h1], ?_, trivial, by simpa [Diff.paths, h1] using huf⟩
          simp only [Diff.creates, if_true]
          rw [h1]
        | textChange d => obtain ⟨-, -, s, t, -, h, -⟩ := hm; rw [hca] at h; cases h
        | byteChange d => obtain ⟨-, -, -, s, t, -, h, -⟩ := hm; rw [hca] at h; cases h
        | textAdd d => obtain ⟨-, -, s, h, -⟩ := hm; rw [hca] at h; cases h
        | byteAdd d => obtain ⟨-, -, -, h, -⟩ := hm; rw [hca] at h; cases h
      obtain ⟨k1, k2, k3, k4⟩ := key
      exact ⟨d, none, e1, k3, k4, .remove k2 k1, rfl, nofun, fun _ => rfl⟩
  | some b, some a =>
    have hb := FS.contentAt_of_file (c := b) hold
    have ha := FS.contentAt_of_file (c := a) hnew
    have paths : ∀ path ∈ [file, after], IsUtf8 path := by
      intro path h
      simp only [List.mem_cons, List.not_mem_nil, or_false] at h
      rcases h with rfl | rfl <;> assumption
    cases kind with
    | text =>
      have hctx : context ≤ 255 := hk
      obtain ⟨s, rfl, hsb⟩ := hF b rfl
      obtain ⟨⟨t, rfl, hst⟩, -⟩ := hV a rfl
      have hsz : ∀ n, n ≤ maxLines → n < wordSize := by
        intro n h
        simp only [maxLines, wordSize] at *
        omega
      obtain ⟨cs, hcs⟩ := diffClumps_total p (splitInclusive s) (splitInclusive t) context
      have hd := diffNew_text hf p context hb ha hcs
      obtain ⟨hdiff, changes, hch, hd2⟩ := diffClumps_full hctx hcs
      obtain ⟨hr, hl, hback⟩ := hdiff.retarget
      have hlines := isLines_unique (isLines_patched hch hd2) (isLines_splitInclusive _)
      generalize hu : (patchedFrom (splitInclusive s) 0 0 cs).flatten = u at hlines
      change Str at u
      have hbytes : ∀ u : Str, bytesOf (splitInclusive u) = u.bytes := by
        intro u
        show (splitInclusive u).flatMap Str.bytes = _
        rw [flatMap_bytes, flatten_splitInclusive]
      have e1 : (applyInto q cs (splitInclusive s) false).run = (.ok { clean := cs.length }, u.bytes) := by
        rw [apply_to_source q hdiff hsb hst, WM.run_emit, hlines, hbytes]
      have e2 : (applyInto q' cs (splitInclusive u) true).run = (.ok { clean := cs.length }, s.bytes) := by
        have := apply_to_source q' hr.swap (by omega) hsb
        rw [Swap.applyAll, hback, List.length_map, hlines, hbytes] at this
        rw [show (true : Bool) = !false from rfl, this, WM.run_emit]
      refine ⟨_, some u.bytes, hd, clumps_inRange hctx hcs (hsz _ hsb) (hsz _ hst), paths,
        .change rfl ⟨s, _, rfl, e1⟩ ⟨u, _, rfl, e2⟩, rfl, ?_, ?_⟩
      · rintro _ ⟨⟩
        exact ⟨u, rfl, by rw [← hlines, hl]; exact hst⟩
      · intro hi
        have := eq_of_noIsland (u := splitInclusive u) (by rw [← hlines, hl]) (by rw [← hlines]; exact patched_item hch hd2) (hi _ _ rfl rfl s t rfl rfl)
        rw [← hbytes u, this, hbytes]
    | bytes =>
      obtain ⟨hc1, hctx⟩ : 1 ≤ context ∧ context ≤ 255 := hk
      obtain ⟨hbne, hbz⟩ := hF b rfl
      obtain ⟨⟨hane, haz⟩, hn⟩ := hV a rfl
      obtain ⟨cs, hcs⟩ := diffClumps_total p b a context
      have hd := diffNew_bytes hf p context hb ha (fun h => hn h.2) hcs
      obtain ⟨u, e1, e2, e3, -, e4⟩ := C77_undo_bytes p q q' b a context hc1 hctx hbne hane (by omega) cs hcs
      refine ⟨_, some u, hd, clumps_inRange hctx hcs (by omega) (by omega), paths, .change rfl e1 e4, rfl, ?_, ?_⟩
      · rintro _ ⟨⟩
        refine ⟨?_, by omega⟩
        rintro rfl
        exact hane (List.length_eq_zero_iff.1 e2.symm)
      · intro hi
        rw [eq_of_noIsland e2 e3 (hi _ _ rfl rfl)]

end PwDiff
