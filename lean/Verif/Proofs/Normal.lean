import Verif.Proofs.Programs
import Verif.Proofs.Patched
import Verif.Proofs.DiffJson

/-! # The programs when nothing goes wrong -/

namespace PwDiff

open Sys

variable {w : World}

theorem openFile_eq (hf : w.faults = []) (path : Path) : openFile path w = (.ok (w.fs.contentAt path), w) :=
  operation_normal hf

theorem ofOutcome_ok {α : Type} (a : α) (w : World) : ofOutcome (.ok a) w = (.ok (some a), w) := rfl

/-- Following links does not end at a link. -/
theorem FS.followFrom_not_link {fs : FS} {n i j : Nat} (h : fs.followFrom n i = some j) (t : Nat) : fs.node j ≠ some (.link t) := by
  induction n generalizing i with
  | zero => simp [FS.followFrom] at h
  | succ n ih =>
    unfold FS.followFrom at h
    split at h
    · exact ih h
    · next hn =>
      obtain rfl := Option.some.inj h
      exact hn t

theorem pathExists_eq (hf : w.faults = []) (path : Path) : pathExists path w = (.ok (w.fs.contentAt path).isSome, w) := by
  unfold pathExists
  rw [operation_normal hf]
  simp only [FS.contentAt]
  cases hfo : w.fs.follow path with
  | none => rfl
  | some i =>
    have hl := FS.followFrom_not_link hfo
    cases hn : w.fs.node i with
    | none => simp [hn]
    | some x =>
      cases x with
      | file c => simp [hn]
      | dir => simp [hn]
      | link t => exact absurd hn (hl t)

/-- Only a directory fails to be read. -/
theorem FS.contentAt_fails {fs : FS} {path : Path} {r : Reader} (h : fs.contentAt path = some r) :
    (∃ c, r = ⟨c, false⟩) ∨ r = ⟨[], true⟩ := by
  unfold FS.contentAt at h
  split at h
  · simp at h
  · split at h
    · exact .inl ⟨_, (Option.some.inj h).symm⟩
    · exact .inr (Option.some.inj h).symm
    · simp at h

/-- A file that appears where there was nothing does not change what other paths lead to. -/
theorem FS.contentAt_set {fs : FS} {path : Path} {r : Reader} (h : fs.contentAt path = some r) {i : Nat} (hi : fs.node i = none)
    (x : Option Node) : (fs.set i x).contentAt path = some r := by
  have key : ∀ n k j, fs.followFrom n k = some j → fs.node j ≠ none → (fs.set i x).followFrom n k = some j := by
    intro n
    induction n with
    | zero => intro k j h; simp [FS.followFrom] at h
    | succ n ih =>
      intro k j h hj
      unfold FS.followFrom at h ⊢
      rw [FS.set_node]
      by_cases hk : k = i
      · rw [hk, hi] at h
        simp only [Option.some.injEq] at h
        rw [← h] at hj
        exact absurd hi hj
      · rw [if_neg hk]
        split at h
        · exact ih _ _ h hj
        · exact h
  unfold FS.contentAt at h ⊢
  cases hfo : fs.follow path with
  | none => rw [hfo] at h; simp at h
  | some j =>
    rw [hfo] at h
    simp only at h
    have hj : fs.node j ≠ none := by
      intro e
      rw [e] at h
      simp at h
    have hji : j ≠ i := by
      rintro rfl
      exact hj hi
    have : (fs.set i x).follow path = some j := key _ _ _ hfo hj
    rw [this]
    simp only [FS.set_node, if_neg hji]
    exact h

/-- The same for a change of an entry that is no link, seen from a path that leads elsewhere. -/
theorem FS.contentAt_of_file {fs : FS} {path : Path} {c : List UInt8} (h : fs.node (fs.entry path) = some (.file c)) :
    fs.contentAt path = some ⟨c, false⟩ := by
  unfold FS.contentAt FS.follow FS.followFrom
  rw [h]
  simp only
  rw [h]

theorem FS.contentAt_none {fs : FS} {path : Path} (h : fs.node (fs.entry path) = none) : fs.contentAt path = none := by
  unfold FS.contentAt FS.follow FS.followFrom
  rw [h]
  simp only
  rw [h]

theorem FS.entry_not_dir {fs : FS} {path : Path} {c : List UInt8} (h : fs.contentAt path = some ⟨c, false⟩) :
    fs.node (fs.entry path) ≠ some .dir := by
  intro e
  unfold FS.contentAt FS.follow FS.followFrom at h
  rw [e] at h
  simp only at h
  rw [e] at h
  simp at h

/-! ## Making diffs -/

theorem readBytes_file (c : List UInt8) : readBytes ⟨c, false⟩ = .ok c := rfl

theorem diffClumps_total {T : Type} [DecidableEq T] [Item T] [LawfulItem T] (p : Profile) (before after : List T) (context : Nat) :
    ∃ cs, diffClumps p before after context = .ok cs := by
  obtain ⟨_, ccs, -, -, -, -, h⟩ := diffClumps_spec p before after context
  exact ⟨_, h⟩

/-- Reading text succeeds exactly for valid UTF-8. -/
theorem readText_not {r : Reader} (h : ¬ (r.fails = false ∧ IsUtf8 r.data)) : readText r = .ioErr := by
  rcases readText_total r with h' | ⟨ls, h'⟩
  · exact h'
  · obtain ⟨h1, s, h2, -⟩ := (readText_eq_ok_iff r ls).1 h'
    exact absurd ⟨h1, s, h2⟩ h

theorem pathAndLines_some (hf : w.faults = []) {path : Path} {s : Str} (h : w.fs.contentAt path = some ⟨s.bytes, false⟩) :
    PathAndLines.new path w = (.ok (some ⟨path, splitInclusive s⟩), w) := by
  unfold PathAndLines.new
  rw [bind_ok (openFile_eq hf path), h]
  simp only
  rw [readText_bytes]
  rfl

theorem pathAndLines_none (hf : w.faults = []) {path : Path} {r : Reader} (h : w.fs.contentAt path = some r)
    (hn : ¬ (r.fails = false ∧ IsUtf8 r.data)) : PathAndLines.new path w = (.ok none, w) := by
  unfold PathAndLines.new
  rw [bind_ok (openFile_eq hf path), h]
  simp only
  rw [readText_not hn]
  rfl

theorem pathAndBytes_some (hf : w.faults = []) {path : Path} {c : List UInt8} (h : w.fs.contentAt path = some ⟨c, false⟩) :
    PathAndBytes.new path w = (.ok (some ⟨path, false, c⟩), w) := by
  unfold PathAndBytes.new
  rw [bind_ok (openFile_eq hf path), h]
  rfl

theorem pathAndBytes_none (hf : w.faults = []) {path : Path} (h : w.fs.contentAt path = some ⟨[], true⟩) :
    PathAndBytes.new path w = (.ok none, w) := by
  unfold PathAndBytes.new
  rw [bind_ok (openFile_eq hf path), h]
  rfl

theorem textChange_some (hf : w.faults = []) (p : Profile) (context : Nat) {before after : Path} {s t : Str}
    (hb : w.fs.contentAt before = some ⟨s.bytes, false⟩) (ha : w.fs.contentAt after = some ⟨t.bytes, false⟩)
    {cs : List (DiffClump Str)} (hc : diffClumps p (splitInclusive s) (splitInclusive t) context = .ok cs) :
    TextChangeDiff.new p before after context w = (.ok (some ⟨before, after, cs⟩), w) := by
  unfold TextChangeDiff.new
  rw [bind_ok (openFile_eq hf before), hb]
  simp only
  rw [readText_bytes]
  rw [bind_ok (ofOutcome_ok (splitInclusive s) w)]
  simp only
  rw [bind_ok (openFile_eq hf after), ha]
  simp only
  rw [readText_bytes]
  rw [bind_ok (ofOutcome_ok (splitInclusive t) w)]
  simp only
  rw [hc]
  rfl

theorem textChange_none (hf : w.faults = []) (p : Profile) (context : Nat) {before after : Path} {r q : Reader}
    (hb : w.fs.contentAt before = some r) (ha : w.fs.contentAt after = some q)
    (hn : ¬ ((r.fails = false ∧ IsUtf8 r.data) ∧ q.fails = false ∧ IsUtf8 q.data)) :
    TextChangeDiff.new p before after context w = (.ok none, w) := by
  unfold TextChangeDiff.new
  rw [bind_ok (openFile_eq hf before), hb]
  simp only
  by_cases h1 : r.fails = false ∧ IsUtf8 r.data
  · rcases readText_total r with h' | ⟨ls, h'⟩
    · rw [h']; rfl
    · rw [h']
      rw [bind_ok (ofOutcome_ok ls w)]
      simp only
      rw [bind_ok (openFile_eq hf after), ha]
      simp only
      rw [readText_not (fun h2 => hn ⟨h1, h2⟩)]
      rfl
  · rw [readText_not h1]
    rfl

theorem byteChange_some (hf : w.faults = []) (p : Profile) (context : Nat) {before after : Path} {b a : List UInt8}
    (hb : w.fs.contentAt before = some ⟨b, false⟩) (ha : w.fs.contentAt after = some ⟨a, false⟩)
    {cs : List (DiffClump UInt8)} (hc : diffClumps p b a context = .ok cs) :
    ByteChangeDiff.new p before after context w = (.ok (some ⟨before, after, false, cs⟩), w) := by
  unfold ByteChangeDiff.new
  rw [bind_ok (openFile_eq hf before), hb]
  simp only
  rw [readBytes_file, bind_ok (ofOutcome_ok b w)]
  simp only
  rw [bind_ok (openFile_eq hf after), ha]
  simp only
  rw [readBytes_file, bind_ok (ofOutcome_ok a w)]
  simp only
  rw [hc]
  rfl

theorem byteChange_none (hf : w.faults = []) (p : Profile) (context : Nat) {before after : Path} {r q : Reader}
    (hb : w.fs.contentAt before = some r) (ha : w.fs.contentAt after = some q)
    (hn : r = ⟨[], true⟩ ∨ q = ⟨[], true⟩) : ByteChangeDiff.new p before after context w = (.ok none, w) := by
  unfold ByteChangeDiff.new
  rw [bind_ok (openFile_eq hf before), hb]
  simp only
  rcases FS.contentAt_fails hb with ⟨c, rfl⟩ | rfl
  · rw [readBytes_file, bind_ok (ofOutcome_ok c w)]
    simp only
    rw [bind_ok (openFile_eq hf after), ha]
    simp only
    rcases hn with hn | rfl
    · simp at hn
    · rfl
  · rfl

/-- What `Diff::new` made a diff from: the diff is of the kind and records what the two paths demand. -/
def Made (p : Profile) (fs : FS) (before after : Path) (context : Nat) : Diff → Prop
  | .textChange d => d.beforePath = before ∧ d.afterPath = after ∧ ∃ s t : Str,
      fs.contentAt before = some ⟨s.bytes, false⟩ ∧ fs.contentAt after = some ⟨t.bytes, false⟩ ∧
      diffClumps p (splitInclusive s) (splitInclusive t) context = .ok d.clumps
  | .byteChange d => d.beforePath = before ∧ d.afterPath = after ∧ d.compressed = false ∧ ∃ b a,
      fs.contentAt before = some ⟨b, false⟩ ∧ fs.contentAt after = some ⟨a, false⟩ ∧ ¬ (IsUtf8 b ∧ IsUtf8 a) ∧
      diffClumps p b a context = .ok d.clumps
  | .textRemove d => d.path = before ∧ fs.contentAt after = none ∧ ∃ s : Str,
      fs.contentAt before = some ⟨s.bytes, false⟩ ∧ d.lines = splitInclusive s
  | .byteRemove d => d.path = before ∧ d.compressed = false ∧ fs.contentAt after = none ∧
      fs.contentAt before = some ⟨d.bytes, false⟩ ∧ ¬ IsUtf8 d.bytes
  | .textAdd d => d.path = before ∧ fs.contentAt before = none ∧ ∃ s : Str,
      fs.contentAt after = some ⟨s.bytes, false⟩ ∧ d.lines = splitInclusive s
  | .byteAdd d => d.path = before ∧ d.compressed = false ∧ fs.contentAt before = none ∧
      fs.contentAt after = some ⟨d.bytes, false⟩ ∧ ¬ IsUtf8 d.bytes

theorem utf8_reader {r : Reader} (h : r.fails = false ∧ IsUtf8 r.data) : ∃ s : Str, r = ⟨s.bytes, false⟩ := by
  obtain ⟨d, f⟩ := r
  obtain ⟨h1, s, h2⟩ := h
  exact ⟨s, by simp only at h1 h2; rw [h1, h2]⟩

theorem not_utf8_file {c : List UInt8} (h : ¬ ((⟨c, false⟩ : Reader).fails = false ∧ IsUtf8 (⟨c, false⟩ : Reader).data)) : ¬ IsUtf8 c :=
  fun h' => h ⟨rfl, h'⟩

theorem diffNew_spec (p : Profile) (before after : Path) (context : Nat) (hf : w.faults = []) :
    ∃ o, Diff.new p before after context w = (.ok o, w) ∧
      (o = none ↔ (w.fs.contentAt before = none ∧ w.fs.contentAt after = none) ∨
        w.fs.contentAt before = some ⟨[], true⟩ ∨ w.fs.contentAt after = some ⟨[], true⟩) ∧
      ∀ d, o = some d → Made p w.fs before after context d := by
  unfold Diff.new
  rw [bind_ok (pathExists_eq hf before)]
  cases hb : w.fs.contentAt before with
  | none =>
    simp only [Option.isSome_none, Bool.false_eq_true, if_false]
    rw [bind_ok (pathExists_eq hf after)]
    cases ha : w.fs.contentAt after with
    | none =>
      simp only [Option.isSome_none, Bool.false_eq_true, if_false]
      exact ⟨none, rfl, by simp, by simp⟩
    | some q =>
      simp only [Option.isSome_some, if_true]
      by_cases h : q.fails = false ∧ IsUtf8 q.data
      · obtain ⟨s, rfl⟩ := utf8_reader h
        rw [bind_ok (pathAndLines_some hf ha)]
        refine ⟨_, rfl, by simp, ?_⟩
        rintro d h
        obtain rfl := Option.some.inj h
        exact ⟨rfl, hb, s, ha, rfl⟩
      · rw [bind_ok (pathAndLines_none hf ha h)]
        simp only
        rcases FS.contentAt_fails ha with ⟨c, rfl⟩ | rfl
        · rw [bind_ok (pathAndBytes_some hf ha)]
          refine ⟨_, rfl, by simp, ?_⟩
          rintro d hd
          obtain rfl := Option.some.inj hd
          exact ⟨rfl, rfl, hb, ha, not_utf8_file h⟩
        · rw [bind_ok (pathAndBytes_none hf ha)]
          exact ⟨_, rfl, by simp, by simp⟩
  | some r =>
    simp only [Option.isSome_some, if_true]
    rw [bind_ok (pathExists_eq hf after)]
    cases ha : w.fs.contentAt after with
    | none =>
      simp only [Option.isSome_none, Bool.false_eq_true, if_false]
      by_cases h : r.fails = false ∧ IsUtf8 r.data
      · obtain ⟨s, rfl⟩ := utf8_reader h
        rw [bind_ok (pathAndLines_some hf hb)]
        refine ⟨_, rfl, by simp, ?_⟩
        rintro d h
        obtain rfl := Option.some.inj h
        exact ⟨rfl, ha, s, hb, rfl⟩
      · rw [bind_ok (pathAndLines_none hf hb h)]
        simp only
        rcases FS.contentAt_fails hb with ⟨c, rfl⟩ | rfl
        · rw [bind_ok (pathAndBytes_some hf hb)]
          refine ⟨_, rfl, by simp, ?_⟩
          rintro d hd
          obtain rfl := Option.some.inj hd
          exact ⟨rfl, rfl, ha, hb, not_utf8_file h⟩
        · rw [bind_ok (pathAndBytes_none hf hb)]
          exact ⟨_, rfl, by simp, by simp⟩
    | some q =>
      simp only [Option.isSome_some, if_true]
      by_cases h : (r.fails = false ∧ IsUtf8 r.data) ∧ q.fails = false ∧ IsUtf8 q.data
      · obtain ⟨s, rfl⟩ := utf8_reader h.1
        obtain ⟨t, rfl⟩ := utf8_reader h.2
        obtain ⟨cs, hc⟩ := diffClumps_total p (splitInclusive s) (splitInclusive t) context
        rw [bind_ok (textChange_some hf p context hb ha hc)]
        refine ⟨_, rfl, by simp, ?_⟩
        rintro d hd
        obtain rfl := Option.some.inj hd
        exact ⟨rfl, rfl, s, t, hb, ha, hc⟩
      · rw [bind_ok (textChange_none hf p context hb ha h)]
        simp only
        by_cases h2 : r = ⟨[], true⟩ ∨ q = ⟨[], true⟩
        · rw [bind_ok (byteChange_none hf p context hb ha h2)]
          refine ⟨_, rfl, ?_, by simp⟩
          simpa using h2
        · rcases FS.contentAt_fails hb with ⟨b, rfl⟩ | rfl
          · rcases FS.contentAt_fails ha with ⟨a, rfl⟩ | rfl
            · obtain ⟨cs, hc⟩ := diffClumps_total p b a context
              rw [bind_ok (byteChange_some hf p context hb ha hc)]
              refine ⟨_, rfl, by simp, ?_⟩
              rintro d hd
              obtain rfl := Option.some.inj hd
              exact ⟨rfl, rfl, rfl, b, a, hb, ha, fun g => h ⟨⟨rfl, g.1⟩, rfl, g.2⟩, hc⟩
            · exact absurd (.inr rfl) h2
          · exact absurd (.inl rfl) h2

theorem diffNew_text (hf : w.faults = []) (p : Profile) (context : Nat) {before after : Path} {s t : Str}
    (hb : w.fs.contentAt before = some ⟨s.bytes, false⟩) (ha : w.fs.contentAt after = some ⟨t.bytes, false⟩)
    {cs : List (DiffClump Str)} (hc : diffClumps p (splitInclusive s) (splitInclusive t) context = .ok cs) :
    Diff.new p before after context w = (.ok (some (.textChange ⟨before, after, cs⟩)), w) := by
  unfold Diff.new
  rw [bind_ok (pathExists_eq hf before), hb]
  simp only [Option.isSome_some, if_true]
  rw [bind_ok (pathExists_eq hf after), ha]
  simp only [Option.isSome_some, if_true]
  rw [bind_ok (textChange_some hf p context hb ha hc)]
  rfl

/-- Context lengths and starts of a diff of files fit their Rust types. -/
theorem clumps_inRange {T : Type} [DecidableEq T] [Item T] [LawfulItem T] {p : Profile} {before after : List T} {context : Nat}
    (hctx : context ≤ 255) {cs : List (DiffClump T)} (h : diffClumps p before after context = .ok cs)
    (hb : before.length < wordSize) (ha : after.length < wordSize) : ∀ c ∈ cs, c.InRange := by
  obtain ⟨changes, ccs, e1, e2, e3, e4, e5⟩ := diffClumps_spec p before after context
  obtain rfl := Outcome.ok_inj (e5.symm.trans h)
  intro c hc
  obtain ⟨cc, hcc, rfl⟩ := List.mem_map.1 hc
  have hin := e4.inside.2.2 cc.ranges (List.mem_map_of_mem hcc)
  have hok := e3.each cc hcc
  obtain ⟨i, j, ie, je, ht⟩ := e3.cover.mem cc hcc
  obtain ⟨-, k1, k2, -, -⟩ := clump_context hctx hok ht
  simp only [DiffClump.InRange, toDiffClump]
  omega

/-! ## Patching -/

theorem createNew_eq (hf : w.faults = []) {path : Path} (h : w.fs.node (w.fs.entry path) = none) :
    createNew path w = (.ok (some (w.fs.entry path)), { w with fs := w.fs.set (w.fs.entry path) (some (.file [])) }) := by
  unfold createNew
  rw [operation_normal hf]
  simp [h]

theorem createNew_exists (hf : w.faults = []) {path : Path} (h : w.fs.node (w.fs.entry path) ≠ none) :
    createNew path w = (.ok none, w) := by
  unfold createNew
  rw [operation_normal hf]
  simp [Option.isSome_iff_ne_none.2 h]

theorem create_eq (hf : w.faults = []) {path : Path} {c : List UInt8} (h : w.fs.node (w.fs.entry path) = some (.file c)) :
    create path w = (.ok (some (w.fs.entry path)), { w with fs := w.fs.set (w.fs.entry path) (some (.file [])) }) := by
  unfold create
  rw [operation_normal hf]
  have hfo : w.fs.follow path = some (w.fs.entry path) := by
    unfold FS.follow FS.followFrom
    rw [h]
  simp [hfo, h]

theorem writeFile_eq {α : Type} (hf : w.faults = []) (i : Nat) (m : WM α) :
    writeFile i m w = (.ok m.run.1, { w with fs := w.fs.set i (some (.file m.run.2)) }) := by
  unfold writeFile
  rw [operation_normal hf]

theorem rename_eq (hf : w.faults = []) {src dst : Path} (hne : w.fs.entry src ≠ w.fs.entry dst)
    (hs : w.fs.node (w.fs.entry src) ≠ none) (hd : w.fs.node (w.fs.entry dst) ≠ some .dir) :
    rename src dst w =
      (.ok true, { w with fs := (w.fs.set (w.fs.entry dst) (w.fs.node (w.fs.entry src))).set (w.fs.entry src) none }) := by
  unfold rename
  rw [operation_normal hf]
  simp [hs, hd, hne]

theorem removeFile_eq (hf : w.faults = []) {path : Path} (h : w.fs.node (w.fs.entry path) ≠ none)
    (hd : w.fs.node (w.fs.entry path) ≠ some .dir) :
    removeFile path w = (.ok true, { w with fs := w.fs.set (w.fs.entry path) none }) := by
  unfold removeFile
  rw [operation_normal hf]
  simp [h, hd]

theorem removeFile_fails (hf : w.faults = []) {path : Path} (h : w.fs.node (w.fs.entry path) = none) :
    removeFile path w = (.ok false, w) := by
  unfold removeFile
  rw [operation_normal hf]
  simp [h]

theorem dropTemp_none (hf : w.faults = []) {temp : Path} (h : w.fs.node (w.fs.entry temp) = none) :
    dropTemp temp w = (.ok (), w) := by
  unfold dropTemp
  rw [bind_ok (removeFile_fails hf h)]
  rfl

theorem FS.set_set (fs : FS) (i : Nat) (x y : Option Node) : (fs.set i x).set i y = fs.set i y := by
  unfold FS.set
  congr 1
  funext j
  simp only
  split <;> rfl

theorem FS.set_comm (fs : FS) {i j : Nat} (h : i ≠ j) (x y : Option Node) : (fs.set i x).set j y = (fs.set j y).set i x := by
  unfold FS.set
  congr 1
  funext k
  simp only
  split
  · next h1 => rw [if_neg (by omega)]
  · rfl

theorem FS.set_same (fs : FS) {i : Nat} {x : Option Node} (h : fs.node i = x) : fs.set i x = fs := by
  unfold FS.set
  cases fs with
  | mk e n =>
    congr 1
    funext k
    simp only
    split
    · next h1 => rw [h1, ← h]
    · rfl

/-- If nothing goes wrong, patching changes the target and nothing else. -/
theorem patchContent_eq {β : Type} (hf : w.faults = []) {temp patchable : Path} {m : WM β} {b : β} {out : List UInt8}
    (hm : m.run = (.ok b, out)) (ht : w.fs.node (w.fs.entry temp) = none)
    (hp : w.fs.node (w.fs.entry patchable) ≠ none) (hd : w.fs.node (w.fs.entry patchable) ≠ some .dir) :
    patchContent temp patchable m w = (.ok (), { w with fs := w.fs.set (w.fs.entry patchable) (some (.file out)) }) := by
  have hne : w.fs.entry temp ≠ w.fs.entry patchable := by
    intro e
    rw [e] at ht
    exact hp ht
  obtain ⟨fs, faults, stdout⟩ := w
  obtain rfl : faults = [] := hf
  simp only at *
  unfold patchContent
  rw [bind_ok (createNew_eq rfl ht)]
  simp only
  rw [bind_ok (create_eq (w := ⟨_, [], _⟩) rfl (c := []) (by simp))]
  simp only
  rw [bind_ok (writeFile_eq (w := ⟨_, [], _⟩) rfl _ _)]
  rw [hm]
  simp only [finishPatch, FS.set_set, FS.set_entry]
  rw [bind_ok (rename_eq (w := ⟨_, [], _⟩) rfl (by simpa using hne) (by simp) (by simp [Ne.symm hne, hd]))]
  simp only [if_true]
  rw [dropTemp_none (w := ⟨_, [], _⟩) rfl (by simp)]
  congr 2
  simp only [FS.set_entry, FS.set_node, if_true]
  rw [FS.set_comm _ hne, FS.set_set, FS.set_comm _ (Ne.symm hne), FS.set_same fs ht]

theorem pwPatch_eq (hf : w.faults = []) (p : Profile) (temp patch : Path) (rev : Bool) {r : Reader} {d : Diff}
    (hr : w.fs.contentAt patch = some r) (hd : Diff.fromReader r = .ok d) :
    pwPatch p temp patch rev w = applyDiff p temp rev d w := by
  unfold pwPatch
  rw [bind_ok (openFile_eq hf patch), hr]
  simp only
  rw [hd, bind_ok (ofOutcome_ok d w)]

theorem patchFile_eq {α β : Type} (hf : w.faults = []) {temp patchable : Path} {read : Reader → Outcome α} {apply : α → WM β}
    {r : Reader} {a : α} {b : β} {out : List UInt8} (hr : w.fs.contentAt patchable = some r) (ha : read r = .ok a)
    (hm : (apply a).run = (.ok b, out)) (ht : w.fs.node (w.fs.entry temp) = none)
    (hd : w.fs.node (w.fs.entry patchable) ≠ some .dir) :
    patchFile temp patchable read apply w = (.ok (), { w with fs := w.fs.set (w.fs.entry patchable) (some (.file out)) }) := by
  unfold patchFile
  rw [bind_ok (openFile_eq hf patchable), hr]
  simp only
  rw [ha, bind_ok (ofOutcome_ok a w)]
  exact patchContent_eq hf hm ht (by
    have := FS.entry_some_of_content hr
    intro e
    rw [e] at this
    simp at this) hd

theorem addFile_eq {α : Type} (hf : w.faults = []) {path : Path} (m : WM α) (h : w.fs.node (w.fs.entry path) = none) :
    addFile path m w = (.ok (), { w with fs := w.fs.set (w.fs.entry path) (some (.file m.run.2)) }) := by
  obtain ⟨fs, faults, stdout⟩ := w
  obtain rfl : faults = [] := hf
  unfold addFile
  rw [bind_ok (createNew_eq rfl h)]
  simp only
  rw [bind_ok (writeFile_eq (w := ⟨_, [], _⟩) rfl _ _)]
  rw [FS.set_set]
  rfl

theorem deleteFile_eq (hf : w.faults = []) {path : Path} (h : w.fs.node (w.fs.entry path) ≠ none)
    (hd : w.fs.node (w.fs.entry path) ≠ some .dir) :
    deleteFile path w = (.ok (), { w with fs := w.fs.set (w.fs.entry path) none }) := by
  unfold deleteFile
  rw [bind_ok (removeFile_eq hf h hd)]
  rfl

/-- A run of `pw_diff` that has a diff to write. -/
theorem pwDiff_eq (hf : w.faults = []) (p : Profile) (before after : Path) (context : Nat) {d : Diff} {out : List UInt8}
    (hd : Diff.new p before after context w = (.ok (some d), w)) (ho : d.toWriter = WM.emit out (.ok ())) :
    pwDiff p before after context w = (.ok (), { w with stdout := w.stdout ++ out }) := by
  unfold pwDiff
  rw [bind_ok hd]
  simp only
  have : writeStdout d.toWriter w = (.ok (.ok ()), { w with stdout := w.stdout ++ out }) := by
    unfold writeStdout
    rw [operation_normal hf, ho, WM.run_emit]
  rw [bind_ok this]
  rfl

/-! ## What only reads -/

/-- Whatever goes wrong, nothing is changed and the process does not end unless it is killed. -/
def Quiet {α : Type} (m : Sys α) : Prop :=
  ∀ w, m.Sat w fun r w' => w'.fs = w.fs ∧ w'.stdout = w.stdout ∧ ((∃ a, r = .ok a) ∨ r = .error .killed)

theorem Quiet.bind {α β : Type} {m : Sys α} {f : α → Sys β} (hm : Quiet m) (hf : ∀ a, Quiet (f a)) : Quiet (m >>= f) := by
  intro w
  apply Sat.bind
  refine (hm w).mono ?_
  rintro r w' ⟨h1, h2, h3⟩
  cases r with
  | ok a =>
    refine (hf a w').mono ?_
    rintro r w'' ⟨g1, g2, g3⟩
    exact ⟨g1.trans h1, g2.trans h2, g3⟩
  | error e =>
    refine ⟨h1, h2, .inr ?_⟩
    rcases h3 with ⟨a, h⟩ | h
    · cases h
    · cases h; rfl

theorem quiet_pure {α : Type} (a : α) : Quiet (pure a : Sys α) := fun _ => ⟨rfl, rfl, .inl ⟨a, rfl⟩⟩

theorem quiet_openFile (path : Path) : Quiet (openFile path) := by
  intro w
  apply sat_operation
  · intro fl; exact ⟨rfl, rfl, .inl ⟨_, rfl⟩⟩
  · intro fl n; exact ⟨rfl, rfl, .inl ⟨_, rfl⟩⟩
  · intro fl n; exact ⟨rfl, rfl, .inr rfl⟩

theorem quiet_pathExists (path : Path) : Quiet (pathExists path) := by
  intro w
  apply sat_operation
  · intro fl; exact ⟨rfl, rfl, .inl ⟨_, rfl⟩⟩
  · intro fl n; exact ⟨rfl, rfl, .inl ⟨_, rfl⟩⟩
  · intro fl n; exact ⟨rfl, rfl, .inr rfl⟩

theorem quiet_ofOutcome {α : Type} {o : Outcome α} (h : o = .ioErr ∨ ∃ a, o = .ok a) : Quiet (ofOutcome o) := by
  rcases h with rfl | ⟨a, rfl⟩
  · exact quiet_pure _
  · exact quiet_pure _

theorem readBytes_total (r : Reader) : readBytes r = .ioErr ∨ ∃ bs, readBytes r = .ok bs := by
  unfold readBytes
  split
  · exact .inl rfl
  · exact .inr ⟨_, rfl⟩

theorem quiet_textChange (p : Profile) (before after : Path) (context : Nat) : Quiet (TextChangeDiff.new p before after context) := by
  unfold TextChangeDiff.new
  refine (quiet_openFile _).bind fun o => ?_
  cases o with
  | none => exact quiet_pure _
  | some r =>
    refine (quiet_ofOutcome (readText_total r)).bind fun o => ?_
    cases o with
    | none => exact quiet_pure _
    | some ls =>
      refine (quiet_openFile _).bind fun o => ?_
      cases o with
      | none => exact quiet_pure _
      | some r =>
        refine (quiet_ofOutcome (readText_total r)).bind fun o => ?_
        cases o with
        | none => exact quiet_pure _
        | some ms =>
          refine (quiet_ofOutcome (.inr (diffClumps_total p ls ms context))).bind fun o => ?_
          cases o <;> exact quiet_pure _

theorem quiet_byteChange (p : Profile) (before after : Path) (context : Nat) : Quiet (ByteChangeDiff.new p before after context) := by
  unfold ByteChangeDiff.new
  refine (quiet_openFile _).bind fun o => ?_
  cases o with
  | none => exact quiet_pure _
  | some r =>
    refine (quiet_ofOutcome (readBytes_total r)).bind fun o => ?_
    cases o with
    | none => exact quiet_pure _
    | some ls =>
      refine (quiet_openFile _).bind fun o => ?_
      cases o with
      | none => exact quiet_pure _
      | some r =>
        refine (quiet_ofOutcome (readBytes_total r)).bind fun o => ?_
        cases o with
        | none => exact quiet_pure _
        | some ms =>
          refine (quiet_ofOutcome (.inr (diffClumps_total p ls ms context))).bind fun o => ?_
          cases o <;> exact quiet_pure _

theorem quiet_pathAndLines (path : Path) : Quiet (PathAndLines.new path) := by
  unfold PathAndLines.new
  refine (quiet_openFile _).bind fun o => ?_
  cases o with
  | none => exact quiet_pure _
  | some r =>
    refine (quiet_ofOutcome (readText_total r)).bind fun o => ?_
    cases o <;> exact quiet_pure _

theorem quiet_pathAndBytes (path : Path) : Quiet (PathAndBytes.new path) := by
  unfold PathAndBytes.new
  refine (quiet_openFile _).bind fun o => ?_
  cases o with
  | none => exact quiet_pure _
  | some r =>
    refine (quiet_ofOutcome (readBytes_total r)).bind fun o => ?_
    cases o <;> exact quiet_pure _

theorem quiet_diffNew (p : Profile) (before after : Path) (context : Nat) : Quiet (Diff.new p before after context) := by
  unfold Diff.new
  refine (quiet_pathExists _).bind fun b => ?_
  cases b with
  | true =>
    simp only [if_true]
    refine (quiet_pathExists _).bind fun b => ?_
    cases b with
    | true =>
      simp only [if_true]
      refine (quiet_textChange p before after context).bind fun o => ?_
      cases o with
      | some d => exact quiet_pure _
      | none =>
        refine (quiet_byteChange p before after context).bind fun o => ?_
        cases o <;> exact quiet_pure _
    | false =>
      simp only [Bool.false_eq_true, if_false]
      refine (quiet_pathAndLines _).bind fun o => ?_
      cases o with
      | some d => exact quiet_pure _
      | none =>
        refine (quiet_pathAndBytes _).bind fun o => ?_
        cases o <;> exact quiet_pure _
  | false =>
    simp only [Bool.false_eq_true, if_false]
    refine (quiet_pathExists _).bind fun b => ?_
    cases b with
    | true =>
      simp only [if_true]
      refine (quiet_pathAndLines _).bind fun o => ?_
      cases o with
      | some d => exact quiet_pure _
      | none =>
        refine (quiet_pathAndBytes _).bind fun o => ?_
        cases o <;> exact quiet_pure _
    | false =>
      simp only [Bool.false_eq_true, if_false]
      exact quiet_pure _

end PwDiff
