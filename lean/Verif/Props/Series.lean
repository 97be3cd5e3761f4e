import Verif.Proofs.Series
import Verif.Proofs.Recorded

/-! # C114: a series of patches to one file, taken back and made again -/

namespace PwDiff

/-- One step of a series: `pw_diff --context context file after > patch; pw_patch patch`. -/
structure Edit where
  patch : Path
  after : Path
  context : Nat

/-- The steps one after the other: the exit statuses and the state at the end. -/
def editAll (p q : Profile) (temp file : Path) : List Edit → World → List Ended × World
  | [], w => ([], w)
  | e :: es, w =>
    let s1 := (pwDiff p file e.after e.context).run w
    let s2 := (pwPatch q temp e.patch false).run (s1.2.redirect e.patch)
    let r := editAll p q temp file es s2.2
    (s1.1 :: s2.1 :: r.1, r.2)

/-- `pw_patch` with the patches one after the other. -/
def patchAll (q : Profile) (temp : Path) (rev : Bool) : List Path → World → List Ended × World
  | [], w => ([], w)
  | patch :: ps, w =>
    let s := (pwPatch q temp patch rev).run w
    let r := patchAll q temp rev ps s.2
    (s.1 :: r.1, r.2)

/-- A file of a series is missing or a regular file with content that can be diffed; `versions` are the contents of the files
`after`.  Patches get names of their own. -/
structure SeriesReady (kind : SeriesKind) (temp file : Path) (es : List Edit) (w : World) (old : Option (List UInt8))
    (versions : List (Option (List UInt8))) : Prop where
  faults : w.faults = []
  stdout : w.stdout = []
  file_utf8 : IsUtf8 file
  temp_free : w.fs.node (w.fs.entry temp) = none
  temp_ne : w.fs.entry temp ≠ w.fs.entry file
  holds : w.fs.node (w.fs.entry file) = old.map .file
  fits : ∀ b, old = some b → kind.Fits b
  versions_eq : es.map (fun e => w.fs.node (w.fs.entry e.after)) = versions.map fun v => v.map .file
  versions_fit : ∀ a, some a ∈ versions → kind.Version a
  /-- there is something to compare -/
  some_there : ∀ pre a b post, old :: versions = pre ++ a :: b :: post → a ≠ none ∨ b ≠ none
  utf8 : ∀ e ∈ es, IsUtf8 e.after
  context : ∀ e ∈ es, kind.Context e.context
  after_ne : ∀ e ∈ es, w.fs.entry e.after ≠ w.fs.entry file ∧ ∀ e' ∈ es, w.fs.entry e.after ≠ w.fs.entry e'.patch
  patch_free : ∀ e ∈ es, w.fs.node (w.fs.entry e.patch) = none ∧ w.fs.entry e.patch ≠ w.fs.entry file ∧
    w.fs.entry e.patch ≠ w.fs.entry temp
  patch_ne : (es.map fun e => w.fs.entry e.patch).Nodup

variable {kind : SeriesKind} {temp file : Path} {es : List Edit} {w : World} {old : Option (List UInt8)}
  {versions : List (Option (List UInt8))}

/-- The diffs of a series: each leads to the next content. -/
inductive Chain (q q' : Profile) (file : Path) : Option (List UInt8) → List (Path × Diff) → Option (List UInt8) → Prop
  | nil {c} : Chain q q' file c [] c
  | cons {a b c patch d ds} : LeadsTo q q' d file a b → Chain q q' file b ds c → Chain q q' file a ((patch, d) :: ds) c

/-- What applying the patches of a chain does, in whatever state the other files are. -/
theorem Chain.forth {q q' : Profile} {ds : List (Path × Diff)} {a c : Option (List UInt8)} (h : Chain q q' file a ds c) {w : World}
    (hf : w.faults = []) (ht : w.fs.node (w.fs.entry temp) = none) (hne : w.fs.entry temp ≠ w.fs.entry file)
    (hh : ∀ x ∈ ds, ∀ fs : FS, fs.entry = w.fs.entry → fs.node (fs.entry x.1) = w.fs.node (w.fs.entry x.1) → HoldsDiff fs x.1 x.2)
    (hp : ∀ x ∈ ds, w.fs.entry x.1 ≠ w.fs.entry file) (hw : w.fs.node (w.fs.entry file) = a.map .file) :
    patchAll q temp false (ds.map (·.1)) w =
      (List.replicate ds.length (.exited 0), { w with fs := w.fs.set (w.fs.entry file) (c.map .file) }) := by
  induction h generalizing w with
  | nil =>
    rw [FS.set_same _ hw]
    rfl
  | @cons a b c patch d ds h1 h2 ih =>
    have e1 := h1.forth temp patch w hf (hh _ (.head _) _ rfl rfl) ht hw
    simp only [List.map_cons, patchAll, e1, List.length_cons, List.replicate_succ]
    have := ih (w := { w with fs := w.fs.set (w.fs.entry file) (b.map .file) }) hf (by simp [hne, ht]) hne ?_ ?_ (by simp)
    · rw [this]
      simp only [FS.set_entry, FS.set_set]
    · intro x hx fs k1 k2
      refine hh x (.tail _ hx) fs k1 (k2.trans ?_)
      simp [hp x (.tail _ hx)]
    · intro x hx
      exact hp x (.tail _ hx)

theorem patchAll_append (q : Profile) (temp : Path) (rev : Bool) (as bs : List Path) (w : World) :
    patchAll q temp rev (as ++ bs) w = ((patchAll q temp rev as w).1 ++ (patchAll q temp rev bs (patchAll q temp rev as w).2).1,
      (patchAll q temp rev bs (patchAll q temp rev as w).2).2) := by
  induction as generalizing w with
  | nil => rfl
  | cons a as ih => simp only [List.cons_append, patchAll, ih]

/-- The same in reverse, the last patch first. -/
theorem Chain.back {q q' : Profile} {ds : List (Path × Diff)} {a c : Option (List UInt8)} (h : Chain q q' file a ds c) {w : World}
    (hf : w.faults = []) (ht : w.fs.node (w.fs.entry temp) = none) (hne : w.fs.entry temp ≠ w.fs.entry file)
    (hh : ∀ x ∈ ds, ∀ fs : FS, fs.entry = w.fs.entry → fs.node (fs.entry x.1) = w.fs.node (w.fs.entry x.1) → HoldsDiff fs x.1 x.2)
    (hp : ∀ x ∈ ds, w.fs.entry x.1 ≠ w.fs.entry file) (hw : w.fs.node (w.fs.entry file) = c.map .file) :
    patchAll q' temp true (ds.map (·.1)).reverse w =
      (List.replicate ds.length (.exited 0), { w with fs := w.fs.set (w.fs.entry file) (a.map .file) }) := by
  induction h with
  | nil =>
    rw [FS.set_same _ hw]
    rfl
  | @cons a b c patch d ds h1 h2 ih =>
    have e2 := ih (fun x hx => hh x (.tail _ hx)) (fun x hx => hp x (.tail _ hx)) hw
    have e1 := h1.back temp patch { w with fs := w.fs.set (w.fs.entry file) (b.map .file) } hf
      (hh _ (.head _) _ rfl (by simp [hp _ (.head _)])) (by simp [hne, ht]) (by simp)
    simp only [List.map_cons, List.reverse_cons, patchAll_append, e2, patchAll, e1, FS.set_entry, FS.set_set, List.length_cons]
    rw [List.replicate_succ']

/-- The first step. -/
theorem SeriesReady.step (p q q' : Profile) {e : Edit} {v : Option (List UInt8)}
    (h : SeriesReady kind temp file (e :: es) w old (v :: versions)) :
    ∃ (d : Diff) (u : Option (List UInt8)), LeadsTo q q' d file old u ∧
      (pwDiff p file e.after e.context).run w = (.exited 0, { w with stdout := d.fileContent }) ∧
      (∀ fs : FS, fs.node (fs.entry e.patch) = some (.file d.fileContent) → HoldsDiff fs e.patch d) ∧
      (let w' := { w with fs := (w.fs.set (w.fs.entry e.patch) (some (.file d.fileContent))).set (w.fs.entry file) (u.map .file), stdout := [] }
       (pwPatch q temp e.patch false).run (World.redirect { w with stdout := d.fileContent } e.patch) = (.exited 0, w') ∧
       SeriesReady kind temp file es w' u versions) ∧
      ((∀ b a, old = some b → v = some a → kind.NoIsland b a) → u = v) := by
  have heq := h.versions_eq
  simp only [List.map_cons, List.cons.injEq] at heq
  obtain ⟨pf, pn, pt⟩ := h.patch_free e (.head _)
  have hk := h.context e (.head _)
  obtain ⟨d, u, d1, d2, d3, d4, d5, d6, d7⟩ := diff_leads p q q' kind h.faults h.file_utf8 (h.utf8 e (.head _)) hk
    h.holds heq.1 h.fits (fun a ha => h.versions_fit a (by rw [ha]; exact .head _)) (h.some_there [] old v versions rfl)
  have fresh : Fresh w e.patch temp := ⟨h.faults, h.stdout, pf, h.temp_free, Ne.symm pt⟩
  obtain ⟨f1, held⟩ := session_diff p fresh d1 d2 d3
  have f2 := d4.forth temp e.patch { w with fs := w.fs.set (w.fs.entry e.patch) (some (.file d.fileContent)), stdout := [] }
    h.faults (held _ (by simp)) (by simp [Ne.symm pt, h.temp_free]) (by simp [Ne.symm pn, h.holds])
  simp only [FS.set_entry] at f2
  have hne := h.patch_ne
  simp only [List.map_cons, List.nodup_cons, List.mem_map, not_exists, not_and] at hne
  have hafter := h.after_ne
  have same : ∀ i, i ≠ w.fs.entry file → i ≠ w.fs.entry e.patch →
      ((w.fs.set (w.fs.entry e.patch) (some (.file d.fileContent))).set (w.fs.entry file) (u.map .file)).node i = w.fs.node i := by
    intro i h1 h2
    simp [h1, h2]
  refine ⟨d, u, d4, f1, held, ⟨f2, ?_⟩, d7⟩
  refine ⟨h.faults, rfl, h.file_utf8, ?_, h.temp_ne, by simp, d6, ?_, fun a ha => h.versions_fit a (.tail _ ha), ?_,
    fun e' he => h.utf8 e' (.tail _ he), fun e' he => h.context e' (.tail _ he), ?_, ?_, hne.2⟩
  · exact (same _ h.temp_ne (Ne.symm pt)).trans h.temp_free
  · rw [← heq.2]
    refine List.map_congr_left fun e' he => ?_
    exact same _ (hafter e' (.tail _ he)).1 ((hafter e' (.tail _ he)).2 e (.head _))
  · intro pre a b post hl
    cases pre with
    | nil =>
      obtain ⟨rfl, rfl⟩ := List.cons.inj hl
      rcases h.some_there [old] v b post rfl with k | k
      · left
        intro hu
        rw [hu] at d5
        cases v with
        | none => exact k rfl
        | some _ => cases d5
      · exact .inr k
    | cons x pre =>
      obtain ⟨-, rfl⟩ := List.cons.inj hl
      exact h.some_there (old :: v :: pre) a b post rfl
  · intro e' he
    exact ⟨(hafter e' (.tail _ he)).1, fun e'' he'' => (hafter e' (.tail _ he)).2 e'' (.tail _ he'')⟩
  · intro e' he
    obtain ⟨k1, k2, k3⟩ := h.patch_free e' (.tail _ he)
    exact ⟨(same _ k2 (fun k => hne.1 e' he k)).trans k1, k2, k3⟩

theorem SeriesReady.version {e : Edit} (h : SeriesReady kind temp file (e :: es) w old versions) : ∃ v vs, versions = v :: vs := by
  cases versions with
  | nil => exact absurd h.versions_eq (by simp)
  | cons v vs => exact ⟨v, vs, rfl⟩

/-- The steps make a chain of diffs. -/
theorem SeriesReady.chain (p q q' : Profile) (h : SeriesReady kind temp file es w old versions) :
    ∃ (ds : List (Path × Diff)) (c : Option (List UInt8)) (w' : World), editAll p q temp file es w = (List.replicate (2 * es.length) (.exited 0), w') ∧
      ds.map (·.1) = es.map (·.patch) ∧ Chain q q' file old ds c ∧
      w'.faults = [] ∧ w'.stdout = [] ∧ w'.fs.entry = w.fs.entry ∧ w'.fs.node (w.fs.entry file) = c.map .file ∧
      (∀ i, i ≠ w.fs.entry file → (∀ e ∈ es, i ≠ w.fs.entry e.patch) → w'.fs.node i = w.fs.node i) ∧
      (∀ x ∈ ds, ∀ fs : FS, fs.entry = w'.fs.entry → fs.node (fs.entry x.1) = w'.fs.node (w'.fs.entry x.1) → HoldsDiff fs x.1 x.2) ∧
      ((∀ pre b a post, old :: versions = pre ++ some b :: some a :: post → kind.NoIsland b a) →
        c = (old :: versions).getLast (by simp)) := by
  induction es generalizing w old versions with
  | nil =>
    have hv : versions = [] := by
      have := h.versions_eq
      simp only [List.map_nil] at this
      exact List.map_eq_nil_iff.1 this.symm
    subst hv
    exact ⟨[], old, w, rfl, rfl, .nil, h.faults, h.stdout, rfl, h.holds, fun _ _ _ => rfl, nofun, fun _ => rfl⟩
  | cons e es ih =>
    obtain ⟨v, vs, rfl⟩ := h.version
    obtain ⟨d, u, d4, f1, held, ⟨f2, next⟩, d7⟩ := h.step p q q'
    obtain ⟨pf, pn, pt⟩ := h.patch_free e (.head _)
    have hne := h.patch_ne
    simp only [List.map_cons, List.nodup_cons, List.mem_map, not_exists, not_and] at hne
    obtain ⟨ds, c, w', g1, g2, g3, g4, g5, g6, g7, g8, g9, g10⟩ := ih next
    simp only [FS.set_entry] at g6 g7 g8
    refine ⟨(e.patch, d) :: ds, c, w', ?_, by simp [g2], .cons d4 g3, g4, g5, g6, g7, ?_, ?_, ?_⟩
    · simp only [editAll, f1]
      rw [f2]
      simp only [g1]
      rfl
    · intro i h1 h2
      rw [g8 i h1 (fun e' he => h2 e' (.tail _ he))]
      simp [h1, h2 e (.head _)]
    · intro x hx
      rcases List.mem_cons.1 hx with rfl | hx
      · intro fs k1 k2
        refine held fs (k2.trans ?_)
        rw [g6, g8 _ pn (fun e' he k => hne.1 e' he k.symm)]
        simp [pn]
      · exact g9 x hx
    · intro hi
      have hu : u = v := d7 (fun b a hb ha => hi [] b a vs (by rw [hb, ha]; rfl))
      subst hu
      rw [g10 (fun pre b a post hl => hi (old :: pre) b a post (by rw [hl]; rfl))]
      rw [List.getLast_cons_cons]

theorem editAll_append (p q : Profile) (temp file : Path) (es₁ es₂ : List Edit) (w : World) :
    editAll p q temp file (es₁ ++ es₂) w = ((editAll p q temp file es₁ w).1 ++ (editAll p q temp file es₂ (editAll p q temp file es₁ w).2).1,
      (editAll p q temp file es₂ (editAll p q temp file es₁ w).2).2) := by
  induction es₁ generalizing w with
  | nil => rfl
  | cons e es ih => simp only [List.cons_append, editAll, ih]

/-- After the first steps everything is ready for the others. -/
theorem SeriesReady.rest (p q : Profile) {es₁ es₂ : List Edit} (h : SeriesReady kind temp file (es₁ ++ es₂) w old versions) :
    ∃ u vs, SeriesReady kind temp file es₂ (editAll p q temp file es₁ w).2 u vs ∧
      (editAll p q temp file es₁ w).2.fs.entry = w.fs.entry := by
  induction es₁ generalizing w old versions with
  | nil => exact ⟨old, versions, h, rfl⟩
  | cons e es ih =>
    obtain ⟨v, vs, rfl⟩ := SeriesReady.version h
    obtain ⟨d, u, -, f1, -, ⟨f2, next⟩, -⟩ := SeriesReady.step p q q h
    obtain ⟨u', vs', k1, k2⟩ := ih next
    refine ⟨u', vs', ?_, ?_⟩
    · simp only [editAll, f1, f2]
      exact k1
    · simp only [editAll, f1, f2]
      exact k2

/-- The contents before, between and after the steps of a series make a chain; where no single differing pair stands between two
equal ones, they are the versions. -/
theorem C114_forth (p q : Profile) (h : SeriesReady kind temp file es w old versions)
    (hi : ∀ pre b a post, old :: versions = pre ++ some b :: some a :: post → kind.NoIsland b a) :
    let r := editAll p q temp file es w
    r.1 = List.replicate (2 * es.length) (.exited 0) ∧
    r.2.fs.node (w.fs.entry file) = ((old :: versions).getLast (by simp)).map .file ∧
    ∀ i, i ≠ w.fs.entry file → (∀ e ∈ es, i ≠ w.fs.entry e.patch) → r.2.fs.node i = w.fs.node i := by
  obtain ⟨ds, c, w', g1, -, -, -, -, -, g7, g8, -, g10⟩ := h.chain p q q
  rw [g1]
  rw [g10 hi] at g7
  exact ⟨rfl, g7, g8⟩

/-- A series of patches to a file can always be made, and taken back: `pw_patch --reverse` with all patches, the last one first,
restores the file; then `pw_patch` with all of them, in order, leads again to the same content.  All runs have exit status 0, and
nothing but the file is changed.  This holds whether or not the diffs have missed edits. -/
theorem C114_back (p q q' : Profile) (h : SeriesReady kind temp file es w old versions) :
    let r := editAll p q temp file es w
    let b := patchAll q' temp true (es.map (·.patch)).reverse r.2
    let f := patchAll q temp false (es.map (·.patch)) b.2
    r.1 = List.replicate (2 * es.length) (.exited 0) ∧
    b = (List.replicate es.length (.exited 0), { r.2 with fs := r.2.fs.set (w.fs.entry file) (w.fs.node (w.fs.entry file)) }) ∧
    f = (List.replicate es.length (.exited 0), r.2) ∧
    r.2.faults = w.faults ∧ r.2.stdout = w.stdout ∧ r.2.fs.entry = w.fs.entry ∧
    ∀ i, i ≠ w.fs.entry file → (∀ e ∈ es, i ≠ w.fs.entry e.patch) → r.2.fs.node i = w.fs.node i := by
  obtain ⟨ds, c, w', g1, g2, g3, g4, g5, g6, g7, g8, g9, -⟩ := h.chain p q q'
  rw [g1]
  simp only
  have hlen : ds.length = es.length := by
    have := congrArg List.length g2
    simpa using this
  have ht : w'.fs.node (w'.fs.entry temp) = none := by
    rw [g6, g8 _ h.temp_ne (fun e he k => (h.patch_free e he).2.2 k.symm)]
    exact h.temp_free
  have hp : ∀ x ∈ ds, w'.fs.entry x.1 ≠ w'.fs.entry file := by
    intro x hx
    have : x.1 ∈ es.map (·.patch) := by rw [← g2]; exact List.mem_map_of_mem hx
    obtain ⟨e, he, hxe⟩ := List.mem_map.1 this
    rw [← hxe, g6]
    exact (h.patch_free e he).2.1
  have hne : w'.fs.entry temp ≠ w'.fs.entry file := by rw [g6]; exact h.temp_ne
  have hw : w'.fs.node (w'.fs.entry file) = c.map .file := by rw [g6]; exact g7
  have b := g3.back (w := w') g4 ht hne g9 hp hw
  have f := g3.forth (temp := temp) (w := { w' with fs := w'.fs.set (w'.fs.entry file) (old.map .file) }) g4 (by simp [hne, ht]) hne
    (fun x hx fs k1 k2 => g9 x hx fs k1 (k2.trans (by simp [hp x hx]))) hp (by simp)
  rw [g2, hlen] at b f
  simp only [FS.set_entry, FS.set_set, FS.set_same _ hw] at f
  rw [h.holds, ← g6]
  refine ⟨trivial, b, ?_, g4.trans h.faults.symm, g5.trans h.stdout.symm, rfl, ?_⟩
  · rw [b]
    exact f
  · rw [g6]
    exact g8

/-- Also only the last steps can be taken back. -/
theorem C114_last (p q q' : Profile) (es₁ es₂ : List Edit) (h : SeriesReady kind temp file (es₁ ++ es₂) w old versions) :
    let m := (editAll p q temp file es₁ w).2
    let r := (editAll p q temp file (es₁ ++ es₂) w).2
    patchAll q' temp true (es₂.map (·.patch)).reverse r =
      (List.replicate es₂.length (.exited 0), { r with fs := r.fs.set (w.fs.entry file) (m.fs.node (w.fs.entry file)) }) := by
  obtain ⟨u, vs, h2, he⟩ := SeriesReady.rest p q h
  have := (C114_back p q q' h2).2.1
  simp only [editAll_append]
  rw [this, he]

/-! ## An example -/

/-- Names of one character, and the files `A`, `B` and `C`. -/
def seriesFS : FS where
  entry path := (path.headD 0).toNat
  node
    | 65 => some (.file (Str.bytes "a\nb\n".toList))
    | 66 => some (.file (Str.bytes "a\nc\n".toList))
    | 67 => some (.file (Str.bytes "d\n".toList))
    | _ => none

/-- A file is changed, removed and created again. -/
def seriesEdits : List Edit := [⟨[49], [66], 2⟩, ⟨[50], [68], 0⟩, ⟨[51], [67], 255⟩]

theorem seriesFS_ready : SeriesReady .text [84] [65] seriesEdits ⟨seriesFS, [], []⟩ (some (Str.bytes "a\nb\n".toList))
    [some (Str.bytes "a\nc\n".toList), none, some (Str.bytes "d\n".toList)] := by
  have u : ∀ c : Char, c ∈ ['A', 'B', 'C', 'D'] → IsUtf8 (Str.bytes [c]) := fun c _ => ⟨[c], rfl⟩
  have fit : ∀ s : Str, s.bytes.length ≤ 4 → SeriesKind.text.Fits s.bytes := by
    intro s hs
    refine ⟨s, rfl, ?_⟩
    have := length_splitInclusive_le s
    simp only [maxLines]
    omega
  refine ⟨rfl, rfl, u 'A' (by simp), by decide +kernel, by decide +kernel, by decide +kernel, ?_, by decide +kernel, ?_, ?_, ?_, ?_, by decide +kernel, by decide +kernel, by decide +kernel⟩
  · rintro _ ⟨⟩
    exact fit "a\nb\n".toList (by decide)
  · intro a ha
    simp only [List.mem_cons, Option.some.injEq, reduceCtorEq, List.not_mem_nil, or_false, false_or] at ha
    rcases ha with rfl | rfl
    · exact ⟨fit "a\nc\n".toList (by decide), trivial⟩
    · exact ⟨fit "d\n".toList (by decide), trivial⟩
  · intro pre a b post h
    match pre, h with
    | [], h => cases h; simp
    | [_], h => cases h; simp
    | [_, _], h => cases h; simp
    | _ :: _ :: _ :: pre, h =>
      have := congrArg List.length h
      simp at this
      omega
  · intro e he
    simp only [seriesEdits, List.mem_cons, List.not_mem_nil, or_false] at he
    rcases he with rfl | rfl | rfl
    · exact u 'B' (by simp)
    · exact u 'D' (by simp)
    · exact u 'C' (by simp)
  · intro e he
    simp only [seriesEdits, List.mem_cons, List.not_mem_nil, or_false] at he
    rcases he with rfl | rfl | rfl <;> simp [SeriesKind.Context]

example (p q q' : Profile) := C114_back p q q' seriesFS_ready
example (p q q' : Profile) := C114_last p q q' (seriesEdits.take 1) (seriesEdits.drop 1) seriesFS_ready

end PwDiff
