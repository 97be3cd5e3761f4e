import Verif.Props.Blocks
import Verif.Props.Clumps
import Verif.Props.Joined
import Verif.Props.Bytes
import Verif.Proofs.Relabel

/-! # C101: diffing and patching depend only on which lines are equal -/

namespace PwDiff

section

variable {T U : Type}

/-- The same positions of two pairs of sequences hold equal items. -/
structure SameHits (before after : List T) (before' after' : List U) : Prop where
  old : before'.length = before.length
  new : after'.length = after.length
  hits : ∀ j i, Hit before after j i ↔ Hit before' after' j i

theorem SameHits.symm {before after : List T} {before' after' : List U} (h : SameHits before after before' after') :
    SameHits before' after' before after := ⟨h.old.symm, h.new.symm, fun j i => (h.hits j i).symm⟩

theorem SameHits.run {before after : List T} {before' after' : List U} (h : SameHits before after before' after') (b a n : Nat) :
    CommonRun before after b a n ↔ CommonRun before' after' b a n :=
  ⟨fun hr t ht => (h.hits _ _).1 (hr t ht), fun hr t ht => (h.hits _ _).2 (hr t ht)⟩

theorem IsBlock.transfer {before after : List T} {before' after' : List U} (h : SameHits before after before' after')
    {br ar : Range} {c : CommonSubsequence} (hc : IsBlock before after br ar c) : IsBlock before' after' br ar c := by
  obtain ⟨n, e, h1, h2, h3⟩ := hc
  refine ⟨n, e, ⟨h1.pos, h1.inOld, h1.inNew, (h.run ..).1 h1.run, ?_, ?_⟩, ⟨(h.run ..).1 h2.run, h2.inside, ?_⟩, h3⟩
  · intro j i k e1 e2 e3 e4 hr
    exact h1.longest j i k e1 e2 e3 e4 ((h.run ..).2 hr)
  · intro j i e1 e2 e3 e4 hr
    exact h1.first j i e1 e2 e3 e4 ((h.run ..).2 hr)
  · intro e1 e2 hh
    exact h2.stop e1 e2 ((h.hits ..).2 hh)

theorem Decomp.transfer {before after : List T} {before' after' : List U} (h : SameHits before after before' after')
    {bs be as ae : Nat} {d : List CommonSubsequence} (hd : Decomp before after bs be as ae d) : Decomp before' after' bs be as ae d := by
  induction hd with
  | leaf h1 h2 h3 => exact .leaf h1 h2 fun j i e1 e2 e3 e4 hh => h3 j i e1 e2 e3 e4 ((h.hits ..).2 hh)
  | node c hc _ _ ihl ihr => exact .node c (hc.transfer h) ihl ihr

variable [DecidableEq T] [Item T] [LawfulItem T] [DecidableEq U] [Item U] [LawfulItem U]

/-- The change list depends only on the lengths of the sequences and on which position of the one holds the same item as which
position of the other, and not on what the items are, nor on equalities within one sequence. -/
theorem C101_changes (p q : Profile) (before after : List T) (before' after' : List U)
    (h : SameHits before after before' after') : changesOf p before after = changesOf q before' after' := by
  obtain ⟨changes, -, e, -⟩ := diffClumps_spec p before after 0
  obtain ⟨h1, h2, h3, d, h4, h5⟩ := (C70_changes p before after changes).1 e
  rw [e, (C70_changes q before' after' changes).2]
  rw [h.old, h.new]
  exact ⟨h1, h2, h3, d, h4.transfer h, h5⟩

/-- So do the positions, the lengths and the contexts of the clumps. -/
theorem C101_clumps (p q : Profile) (before after : List T) (before' after' : List U)
    (h : SameHits before after before' after') (context : Nat) (cs : List (DiffClump T)) (cs' : List (DiffClump U))
    (hc : diffClumps p before after context = .ok cs) (hc' : diffClumps q before' after' context = .ok cs') :
    cs'.map (fun c => (c.contextLengths, c.before.start, c.before.items.length, c.after.start, c.after.items.length)) =
      cs.map (fun c => (c.contextLengths, c.before.start, c.before.items.length, c.after.start, c.after.items.length)) := by
  obtain ⟨changes, ccs, e1, e2, e3, e4, e5⟩ := diffClumps_spec p before after context
  obtain ⟨changes', ccs', f1, f2, f3, f4, f5⟩ := diffClumps_spec q before' after' context
  rw [C101_changes p q before after before' after' h] at e1
  obtain rfl := Outcome.ok_inj (e1.symm.trans f1)
  obtain rfl := Outcome.ok_inj (e2.symm.trans f2)
  obtain rfl := Outcome.ok_inj (e5.symm.trans hc)
  obtain rfl := Outcome.ok_inj (f5.symm.trans hc')
  simp only [List.map_map]
  apply List.map_congr_left
  intro cc _
  simp [toDiffClump, cut, h.old, h.new]

/-- Items with other names. -/
def Snippet.map (f : T → U) (s : Snippet T) : Snippet U := ⟨s.start, s.items.map f⟩
def DiffClump.map (f : T → U) (c : DiffClump T) : DiffClump U := ⟨c.contextLengths, c.before.map f, c.after.map f⟩

omit [DecidableEq T] [Item T] [LawfulItem T] [DecidableEq U] [Item U] [LawfulItem U] in
theorem sameHits_map (f : T → U) (before after : List T) (hf : ∀ x ∈ before, ∀ y ∈ after, f x = f y → x = y) :
    SameHits before after (before.map f) (after.map f) := by
  refine ⟨by simp, by simp, fun j i => ⟨?_, ?_⟩⟩
  · rintro ⟨x, h1, h2⟩
    exact ⟨f x, by simp [h1], by simp [h2]⟩
  · rintro ⟨z, h1, h2⟩
    rw [List.getElem?_map, Option.map_eq_some_iff] at h1 h2
    obtain ⟨x, h1, rfl⟩ := h1
    obtain ⟨y, h2, e⟩ := h2
    obtain rfl := hf x (List.mem_of_getElem? h1) y (List.mem_of_getElem? h2) e.symm
    exact ⟨_, h1, h2⟩

/-- If every line is replaced by another, different ones by different ones, the lines of the diff are replaced in the same way and
nothing else changes. -/
theorem C101_map (p q : Profile) (f : T → U) (before after : List T) (context : Nat) (cs : List (DiffClump T))
    (hf : ∀ x ∈ before, ∀ y ∈ after, f x = f y → x = y) (hc : diffClumps p before after context = .ok cs) :
    diffClumps q (before.map f) (after.map f) context = .ok (cs.map (DiffClump.map f)) := by
  obtain ⟨changes, ccs, e1, e2, e3, e4, e5⟩ := diffClumps_spec p before after context
  obtain ⟨changes', ccs', f1, f2, f3, f4, f5⟩ := diffClumps_spec q (before.map f) (after.map f) context
  rw [C101_changes p q before after _ _ (sameHits_map f before after hf)] at e1
  obtain rfl := Outcome.ok_inj (e1.symm.trans f1)
  obtain rfl := Outcome.ok_inj (e2.symm.trans f2)
  obtain rfl := Outcome.ok_inj (e5.symm.trans hc)
  rw [f5, List.map_map]
  congr 1
  apply List.map_congr_left
  intro cc _
  simp [toDiffClump, cut, DiffClump.map, Snippet.map]

/-! ## Patching -/

omit [DecidableEq T] [Item T] [LawfulItem T] [DecidableEq U] [Item U] [LawfulItem U] in
theorem itemsIn_map (p : Profile) (f : T → U) (s : Snippet T) (range : Option Range) :
    Alike (fun x x' => x' = x.map f ∧ ∀ y ∈ x, y ∈ s.items) (s.itemsIn p range) ((s.map f).itemsIn p range) := by
  unfold Snippet.itemsIn
  cases range with
  | none => exact .ok ⟨rfl, fun _ h => h⟩
  | some r =>
    have key : ∀ o : Outcome Unit, Alike (fun x x' => x' = x.map f ∧ ∀ y ∈ x, y ∈ s.items)
        (o >>= fun _ => slice s.items r.start r.fin) (o >>= fun _ => slice (s.items.map f) r.start r.fin) := by
      intro o
      cases o with
      | ok _ => exact slice_map _ _ _
      | ioErr => exact .ioErr
      | panic => exact .panic
      | diverge => exact .diverge
    cases p with
    | release => exact key (.ok ())
    | debug =>
      have e : (s.map f).len = s.len := by simp [Snippet.len, Snippet.map]
      have e2 : (s.map f).start = s.start := rfl
      simp only [e, e2]
      cases uadd .debug s.len s.start with
      | ok m => exact key _
      | ioErr => exact .ioErr
      | panic => exact .panic
      | diverge => exact .diverge

omit [DecidableEq T] [Item T] [LawfulItem T] [DecidableEq U] [Item U] [LawfulItem U] in
theorem renamed_map (p : Profile) (f : T → U) {P : T → Prop} {c : DiffClump T} (hb : ∀ x ∈ c.before.items, P x)
    (ha : ∀ x ∈ c.after.items, P x) : Renamed p f P c (c.map f) := by
  have e : ∀ r, (c.map f).beforeSide r = (c.beforeSide r).map f := by intro r; cases r <;> rfl
  have hP : ∀ r, ∀ x ∈ (c.beforeSide r).items, P x := by intro r; cases r <;> assumption
  constructor
  · intro r
    show ((c.map f).beforeSide r).start = _
    rw [e]; rfl
  · intro r
    show uadd p ((c.map f).beforeSide r).start ((c.map f).beforeSide r).items.length = _
    rw [e]
    simp only [Snippet.map, List.length_map]
    rfl
  · intro r
    show ChangeBasics.defaultBeforeLength p ((c.map f).beforeSide r).start
      (uadd p ((c.map f).beforeSide r).start ((c.map f).beforeSide r).items.length) = _
    rw [e]
    simp only [Snippet.map, List.length_map]
    rfl
  · rfl
  · intro range r
    show Alike _ ((c.beforeSide r).itemsIn p range) (((c.map f).beforeSide r).itemsIn p range)
    rw [e]
    have := itemsIn_map p f (c.beforeSide r) range
    revert this
    generalize (c.beforeSide r).itemsIn p range = o
    generalize ((c.beforeSide r).map f).itemsIn p range = o'
    intro h
    cases h with
    | ok h => exact .ok ⟨h.1, fun x hx => hP r x (h.2 x hx)⟩
    | ioErr => exact .ioErr
    | panic => exact .panic
    | diverge => exact .diverge

omit [DecidableEq T] [LawfulItem T] [DecidableEq U] [LawfulItem U] in
theorem WSim.run {α : Type} {f : T → U} {P : T → Prop} {m m' : WM α} (h : WSim f P m m' fun a a' => a' = a) :
    ∃ r pieces, m.run = (r, render pieces) ∧ m'.run = (r, render (pieces.map (Piece.map f))) ∧ Pieces P pieces := by
  obtain ⟨pieces, h0, h1, h2, h3⟩ := h.at_ [] []
  have e : (m' ⟨[], none⟩).1 = (m ⟨[], none⟩).1 := by
    revert h3
    generalize (m ⟨[], none⟩).1 = o
    generalize (m' ⟨[], none⟩).1 = o'
    intro h3
    cases h3 with
    | ok h => rw [h]
    | _ => rfl
  refine ⟨(m ⟨[], none⟩).1, pieces, ?_, ?_, h0⟩
  · show ((m ⟨[], none⟩).1, (m ⟨[], none⟩).2.out) = _
    rw [h1]; rfl
  · show ((m' ⟨[], none⟩).1, (m' ⟨[], none⟩).2.out) = _
    rw [h2, e]; rfl

omit [DecidableEq T] [Item T] [LawfulItem T] [DecidableEq U] [Item U] [LawfulItem U] in
theorem allRenamed_map (p : Profile) (f : T → U) {P : T → Prop} {cs : List (DiffClump T)}
    (h : ∀ c ∈ cs, ∀ x, x ∈ c.before.items ∨ x ∈ c.after.items → P x) : AllRenamed p f P cs (cs.map (DiffClump.map f)) := by
  induction cs with
  | nil => exact .nil
  | cons c cs ih =>
    exact .cons (renamed_map p f (fun x hx => h c (by simp) x (.inl hx)) fun x hx => h c (by simp) x (.inr hx))
      (ih fun c hc => h c (by simp [hc]))

/-- Any patch, file, direction and outcome: if every line of the file and the patch is replaced by another, different ones by
different ones, then patching ends in the same way with the same statistics, and in what is written the same lines are replaced
(`Piece` : a line or one of the three markers). -/
theorem C101_patch (p : Profile) (f : T → U) (cs : List (DiffClump T)) (l : List T) (reverse : Bool)
    (hf : ∀ x y, FromInput l cs x → FromInput l cs y → f x = f y → x = y) :
    ∃ r pieces, (applyInto p cs l reverse).run = (r, render pieces) ∧
      (applyInto p (cs.map (DiffClump.map f)) (l.map f) reverse).run = (r, render (pieces.map (Piece.map f))) ∧
      Pieces (FromInput l cs) pieces :=
  (sim_applyInto (P := FromInput l cs) (fun _ hx => .inl hx) hf
    (allRenamed_map p f fun c hc _ hx => .inr ⟨c, hc, hx⟩) reverse).run

omit [Item T] [LawfulItem T] [Item U] [LawfulItem U] in
/-- The answer whether a patch is already applied stays the same. -/
theorem C101_already (p : Profile) (f : T → U) (cs : List (DiffClump T)) (l : List T) (reverse : Bool)
    (hf : ∀ x y, FromInput l cs x → FromInput l cs y → f x = f y → x = y) :
    isAlreadyApplied p (cs.map (DiffClump.map f)) (l.map f) reverse = isAlreadyApplied p cs l reverse :=
  isAlreadyApplied_renamed (P := FromInput l cs) (fun _ hx => .inl hx) hf
    (allRenamed_map p f fun c hc _ hx => .inr ⟨c, hc, hx⟩) reverse

end

/-! ## Hunks -/

/-- A hunk with other lines. -/
def UnifiedDiffClump.map (f : Str → Str) (c : UnifiedDiffClump) : UnifiedDiffClump :=
  { c with beforeLines := c.beforeLines.map f, afterLines := c.afterLines.map f }

/-- The line is one of the file or of the hunks. -/
def FromHunks (l : List Str) (cs : List UnifiedDiffClump) (line : Str) : Prop :=
  line ∈ l ∨ ∃ c ∈ cs, line ∈ c.beforeLines ∨ line ∈ c.afterLines

theorem renamed_hunk (p : Profile) (f : Str → Str) {P : Str → Prop} {c : UnifiedDiffClump}
    (h : ∀ x, x ∈ c.beforeLines ∨ x ∈ c.afterLines → P x) : Renamed p f P c (c.map f) := by
  refine ⟨fun _ => rfl, fun _ => rfl, fun _ => rfl, rfl, fun range r => ?_⟩
  show Alike _ (match range with
    | some q => slice (if r then c.afterLines else c.beforeLines) q.start q.fin
    | none => .ok (if r then c.afterLines else c.beforeLines)) (match range with
    | some q => slice (if r then c.afterLines.map f else c.beforeLines.map f) q.start q.fin
    | none => .ok (if r then c.afterLines.map f else c.beforeLines.map f))
  have e : (if r then c.afterLines.map f else c.beforeLines.map f) = (if r then c.afterLines else c.beforeLines).map f := by
    cases r <;> rfl
  have hP : ∀ x ∈ (if r then c.afterLines else c.beforeLines), P x := by
    intro x hx
    cases r with
    | false => exact h x (.inl hx)
    | true => exact h x (.inr hx)
  rw [e]
  generalize (if r then c.afterLines else c.beforeLines) = side at hP
  cases range with
  | none => exact .ok ⟨rfl, hP⟩
  | some q =>
    have := slice_map (f := f) side q.start q.fin
    revert this
    dsimp only
    generalize slice side q.start q.fin = o
    generalize slice (side.map f) q.start q.fin = o'
    intro h
    cases h with
    | ok h => exact .ok ⟨h.1, fun x hx => hP x (h.2 x hx)⟩
    | ioErr => exact .ioErr
    | panic => exact .panic
    | diverge => exact .diverge

/-- The same for hunks. -/
theorem C101_unified (p : Profile) (f : Str → Str) (cs : List UnifiedDiffClump) (l : List Str) (reverse : Bool)
    (hf : ∀ x y, FromHunks l cs x → FromHunks l cs y → f x = f y → x = y) :
    ∃ r pieces, (applyInto p cs l reverse).run = (r, render pieces) ∧
      (applyInto p (cs.map (UnifiedDiffClump.map f)) (l.map f) reverse).run = (r, render (pieces.map (Piece.map f))) ∧
      Pieces (FromHunks l cs) pieces := by
  have : ∀ ds : List UnifiedDiffClump, (∀ c ∈ ds, c ∈ cs) →
      AllRenamed p f (FromHunks l cs) ds (ds.map (UnifiedDiffClump.map f)) := by
    intro ds
    induction ds with
    | nil => exact fun _ => .nil
    | cons c ds ih =>
      exact fun h => .cons (renamed_hunk p f fun x hx => .inr ⟨c, h c (by simp), hx⟩) (ih fun c hc => h c (by simp [hc]))
  exact (sim_applyInto (P := FromHunks l cs) (fun _ hx => .inl hx) hf (this cs fun _ h => h) reverse).run

/-! ## A case -/

/-- The letters `a`, `b`, … replaced by longer lines. -/
def longer (x : Str) : Str := x.dropLast ++ x

example : ∀ x y : Str, (∃ c, x = ln c) → (∃ c, y = ln c) → longer x = longer y → x = y := by
  rintro _ _ ⟨c, rfl⟩ ⟨d, rfl⟩ h
  have : c = d := (List.cons.inj h).1
  rw [this]
example : changesOf .debug ([1, 2, 3, 2] : List UInt8) [1, 5, 3, 2] =
    changesOf .release [ln 'a', ln 'b', ln 'c', ln 'b'] [ln 'a', ln 'x', ln 'c', ln 'b'] := by decide +kernel
example : diffClumps .debug [ln 'a', ln 'b', ln 'c', ln 'd'] [ln 'a', ln 'x', ln 'y', ln 'c', ln 'd'] 1 =
    .ok [⟨(1, 1), ⟨0, [ln 'a', ln 'b', ln 'c']⟩, ⟨0, [ln 'a', ln 'x', ln 'y', ln 'c']⟩⟩] := by decide +kernel
example : diffClumps .debug ([ln 'a', ln 'b', ln 'c', ln 'd'].map longer) ([ln 'a', ln 'x', ln 'y', ln 'c', ln 'd'].map longer) 1 =
    .ok ([(⟨(1, 1), ⟨0, [ln 'a', ln 'b', ln 'c']⟩, ⟨0, [ln 'a', ln 'x', ln 'y', ln 'c']⟩⟩ : DiffClump Str)].map (DiffClump.map longer)) := by
  decide +kernel
/-- The patch applied one line further down, and then a clump that fails. -/
example : (applyInto .debug [(⟨(0, 0), ⟨0, [ln 'a']⟩, ⟨0, [ln 'b']⟩⟩ : DiffClump Str), ⟨(0, 0), ⟨3, [ln 'x']⟩, ⟨3, [ln 'y']⟩⟩]
    [ln 'c', ln 'a', ln 'd'] false).run =
    (.ok { fuzzy := 1, failed := 1 }, Str.bytes "c\nb\n<<<<<<<\nx\n=======\ny\n>>>>>>>\nd\n".toList) := by decide +kernel
example : (applyInto .debug ([(⟨(0, 0), ⟨0, [ln 'a']⟩, ⟨0, [ln 'b']⟩⟩ : DiffClump Str), ⟨(0, 0), ⟨3, [ln 'x']⟩, ⟨3, [ln 'y']⟩⟩].map
    (DiffClump.map longer)) ([ln 'c', ln 'a', ln 'd'].map longer) false).run =
    (.ok { fuzzy := 1, failed := 1 }, Str.bytes "cc\nbb\n<<<<<<<\nxx\n=======\nyy\n>>>>>>>\ndd\n".toList) := by decide +kernel
/-- Lines that become equal make a difference. -/
example : changesOf .debug [ln 'a', ln 'b'] [ln 'a', ln 'c'] ≠
    changesOf .debug [ln 'a', ln 'a'] [ln 'a', ln 'a'] := by decide +kernel

/-! ## Byte patches -/

theorem map_inj_on {T U : Type} {f : T → U} {P : T → Prop} (hf : ∀ x y, P x → P y → f x = f y → x = y) :
    ∀ {a b : List T}, (∀ x ∈ a, P x) → (∀ x ∈ b, P x) → a.map f = b.map f → a = b
  | [], [], _, _, _ => rfl
  | [], _ :: _, _, _, h => by simp at h
  | _ :: _, [], _, _, h => by simp at h
  | x :: a, y :: b, ha, hb, h => by
    simp only [List.map_cons, List.cons.injEq] at h
    rw [hf x y (ha x (by simp)) (hb y (by simp)) h.1, map_inj_on hf (fun z hz => ha z (by simp [hz])) (fun z hz => hb z (by simp [hz])) h.2]

theorem standsAt_map {T U : Type} {f : T → U} {P : T → Prop} (hf : ∀ x y, P x → P y → f x = f y → x = y) {ls l : List T}
    (h1 : ∀ x ∈ ls, P x) (h2 : ∀ x ∈ l, P x) (pos : Int) : StandsAt (ls.map f) (l.map f) pos ↔ StandsAt ls l pos := by
  constructor
  · rintro ⟨pre, post, h, rfl⟩
    obtain ⟨a, post', rfl, h3, h4⟩ := List.map_eq_append_iff.1 h
    obtain ⟨pre', mid, rfl, h5, h6⟩ := List.map_eq_append_iff.1 h3
    have : mid = ls := map_inj_on hf (fun x hx => h2 x (by simp [hx])) h1 h6
    subst this
    exact ⟨pre', post', rfl, by rw [← h5]; simp⟩
  · rintro ⟨pre, post, rfl, rfl⟩
    exact ⟨pre.map f, post.map f, by simp, by simp⟩

theorem foundIn_map {f : UInt8 → UInt8} {P : UInt8 → Prop} (hf : ∀ x y, P x → P y → f x = f y → x = y) {s : Snippet UInt8}
    {l : List UInt8} (h1 : ∀ x ∈ s.items, P x) (h2 : ∀ x ∈ l, P x) : FoundIn (l.map f) (s.map f) ↔ FoundIn l s := by
  simp only [FoundIn, Snippet.map, List.length_map, standsAt_map hf h1 h2]

theorem BytePatching.map {f : UInt8 → UInt8} {P : UInt8 → Prop} (hf : ∀ x y, P x → P y → f x = f y → x = y) {l : List UInt8}
    (hl : ∀ x ∈ l, P x) {k : Nat} {cs : List (DiffClump UInt8)} {out : List UInt8} {r : Outcome Unit}
    (hc : ∀ c ∈ cs, ∀ x, x ∈ c.before.items ∨ x ∈ c.after.items → P x)
    (h : BytePatching l k cs out r) : BytePatching (l.map f) k (cs.map (DiffClump.map f)) (out.map f) r := by
  have hcut : ∀ a b, cut (l.map f) a b = (cut l a b).map f := fun a b => by simp [cut]
  induction h with
  | finish h => rw [List.map_drop]; exact .finish (by simpa using h)
  | overrun h => exact .overrun (by simpa using h)
  | @apply k c cs out r h1 _ ih =>
    have := BytePatching.apply (l := l.map f) (k := k) (c := c.map f) ((foundIn_map hf (fun x hx => hc c (by simp) x (.inl hx)) hl).2 h1)
      (cs := cs.map (DiffClump.map f)) (by simpa [DiffClump.map, Snippet.map] using ih fun c hc' => hc c (by simp [hc']))
    simpa [hcut, DiffClump.map, Snippet.map] using this
  | @already k c cs out r h1 h2 _ ih =>
    have := BytePatching.already (l := l.map f) (k := k) (c := c.map f) (fun h => h1 ((foundIn_map hf (fun x hx => hc c (by simp) x (.inl hx)) hl).1 h))
      ((foundIn_map hf (fun x hx => hc c (by simp) x (.inr hx)) hl).2 h2)
      (cs := cs.map (DiffClump.map f)) (by simpa [DiffClump.map, Snippet.map] using ih fun c hc' => hc c (by simp [hc']))
    simpa [hcut, DiffClump.map, Snippet.map] using this
  | @skip k c cs out r h1 h2 _ ih =>
    exact .skip (c := c.map f) (fun h => h1 ((foundIn_map hf (fun x hx => hc c (by simp) x (.inl hx)) hl).1 h))
      (fun h => h2 ((foundIn_map hf (fun x hx => hc c (by simp) x (.inr hx)) hl).1 h)) (ih fun c hc' => hc c (by simp [hc']))

theorem weight_map {T U : Type} (f : T → U) (cs : List (DiffClump T)) : weight (cs.map (DiffClump.map f)) = weight cs := by
  induction cs with
  | nil => rfl
  | cons c cs ih => simp [weight, DiffClump.map, Snippet.map, ih]

/-- The same for byte patches. -/
theorem C101_bytes (p : Profile) (f : UInt8 → UInt8) (cs : List (DiffClump UInt8)) (l : List UInt8) (reverse : Bool)
    (hsz : l.length + weight cs < wordSize) (hf : ∀ x y, FromInput l cs x → FromInput l cs y → f x = f y → x = y) :
    (byteApplyInto p (cs.map (DiffClump.map f)) (l.map f) reverse).run =
      ((byteApplyInto p cs l reverse).run.1, (byteApplyInto p cs l reverse).run.2.map f) := by
  have main : ∀ cs : List (DiffClump UInt8), l.length + weight cs < wordSize → (∀ x y, FromInput l cs x → FromInput l cs y → f x = f y → x = y) →
      (byteApplyInto p (cs.map (DiffClump.map f)) (l.map f) false).run =
        ((byteApplyInto p cs l false).run.1, (byteApplyInto p cs l false).run.2.map f) := by
    intro cs hsz hf
    have h := (C60_refines p l cs hsz _ _).1 rfl
    exact (C60_refines p (l.map f) _ (by rw [weight_map, List.length_map]; exact hsz) _ _).2
      (h.map hf (fun x hx => .inl hx) fun c hc x hx => .inr ⟨c, hc, hx⟩)
  cases reverse with
  | false => exact main cs hsz hf
  | true =>
    rw [(C32_bytes p _ _).1, (C32_bytes p _ _).1]
    have hw : ∀ cs : List (DiffClump UInt8), weight (cs.map fun c => DiffClump.mk c.contextLengths c.after c.before) = weight cs := by
      intro cs
      induction cs with
      | nil => rfl
      | cons c cs ih => simp [weight, ih]; omega
    have hi : ∀ x, FromInput l (cs.map fun c => DiffClump.mk c.contextLengths c.after c.before) x → FromInput l cs x := by
      rintro x (h | ⟨c, hc, h⟩)
      · exact .inl h
      · obtain ⟨c', hc', rfl⟩ := List.mem_map.1 hc
        exact .inr ⟨c', hc', h.symm⟩
    have := main (cs.map fun c => DiffClump.mk c.contextLengths c.after c.before) (by rw [hw]; exact hsz) (fun x y hx hy => hf x y (hi x hx) (hi y hy))
    rw [← this]
    simp [List.map_map, Function.comp_def, DiffClump.map]

/-- Adding 1 to every byte of the file and of the patch adds 1 to every byte of the result. -/
example : (byteApplyInto .debug [⟨(1, 0), ⟨0, [1, 2]⟩, ⟨0, [1, 3]⟩⟩] [1, 2, 9] false).run = (.ok (), [1, 3, 9]) ∧
    (byteApplyInto .debug ([(⟨(1, 0), ⟨0, [1, 2]⟩, ⟨0, [1, 3]⟩⟩ : DiffClump UInt8)].map (DiffClump.map (· + 1))) ([1, 2, 9].map (· + 1)) false).run =
      (.ok (), [2, 4, 10]) := by decide +kernel
example := C101_bytes .debug (· + 1) [⟨(1, 0), ⟨0, [1, 2]⟩, ⟨0, [1, 3]⟩⟩] [1, 2, 9] false (by decide) (fun x y _ _ h => by simpa using h)

example := C101_map .debug .release longer [ln 'a', ln 'b', ln 'c', ln 'd'] [ln 'a', ln 'x', ln 'y', ln 'c', ln 'd'] 1
  [⟨(1, 1), ⟨0, [ln 'a', ln 'b', ln 'c']⟩, ⟨0, [ln 'a', ln 'x', ln 'y', ln 'c']⟩⟩] (by decide +kernel) (by decide +kernel)

example (p : Profile) := C101_patch p (· + 1 : UInt8 → UInt8) [⟨(1, 0), ⟨0, [1, 2]⟩, ⟨0, [1, 3]⟩⟩] [1, 2, 9] false
  (fun x y _ _ h => by simpa using h)
example (p : Profile) := C101_already p (· + 1 : UInt8 → UInt8) [⟨(1, 0), ⟨0, [1, 2]⟩, ⟨0, [1, 3]⟩⟩] [1, 2, 9] false
  (fun x y _ _ h => by simpa using h)

end PwDiff
