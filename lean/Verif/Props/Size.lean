import Verif.Proofs.JsonSize
import Verif.Props.Reading
import Verif.Props.Tidy
import Verif.Model.Unified

/-! # C105, C106: how large patched files can become -/

namespace PwDiff

open ChangeBasics TextClump

/-! ## What the clumps of the library deliver -/

theorem sideHas_diffClump (p : Profile) {T : Type} [Item T] (c : DiffClump T) (reverse : Bool) :
    SideHas p c reverse (c.beforeSide reverse).items := by
  have key : ∀ r ls, (c.beforeSide reverse).itemsIn p (some r) = .ok ls → slice (c.beforeSide reverse).items r.start r.fin = .ok ls := by
    intro r ls h
    unfold Snippet.itemsIn at h
    cases p with
    | release => exact h
    | debug =>
      obtain ⟨m, -, h⟩ := Outcome.bind_ok h
      obtain ⟨_, -, h⟩ := Outcome.bind_ok h
      exact h
  constructor
  · intro range ls h
    cases range with
    | none => rw [← Outcome.ok_inj (show Outcome.ok (c.beforeSide reverse).items = _ from h)]; exact Nat.le_refl _
    | some r => exact slice_size (key r ls h)
  · intro r ls h
    have := slice_some (key r ls h)
    exact ⟨this.1, this.2.1⟩

theorem sideHas_unified (p : Profile) (c : UnifiedDiffClump) (reverse : Bool) :
    SideHas p c reverse (if reverse then c.afterLines else c.beforeLines) := by
  constructor
  · intro range ls h
    cases range with
    | none =>
      rw [← Outcome.ok_inj (show Outcome.ok (if reverse then c.afterLines else c.beforeLines) = _ from h)]; exact Nat.le_refl _
    | some r => exact slice_size (show slice _ _ _ = _ from h)
  · intro r ls h
    have := slice_some (show slice _ _ _ = _ from h)
    exact ⟨this.1, this.2.1⟩

/-! ## Sums -/

theorem total_eq {α : Type} (f : α → Nat) (l : List α) : total f l = (l.map f).sum := by
  induction l with
  | nil => rfl
  | cons x l ih => simp [total, ih]

theorem total_add {α : Type} (f g : α → Nat) (l : List α) : total (fun x => f x + g x) l = total f l + total g l := by
  induction l with
  | nil => rfl
  | cons x l ih => simp only [total, ih]; omega

theorem total_le {α : Type} {f g : α → Nat} {a b : Nat} {l : List α} (h : ∀ x ∈ l, a * f x ≤ b * g x) : a * total f l ≤ b * total g l := by
  induction l with
  | nil => simp [total]
  | cons x l ih =>
    have h1 := h x (by simp)
    have h2 := ih fun y hy => h y (by simp [hy])
    simp only [total, Nat.mul_add]; omega

theorem WM.Spends.run {α : Type} {n : Nat} {m : WM α} {R : α → Nat → Prop} (h : WM.Spends n m R) :
    m.run.2.length ≤ n ∧ ∀ a, m.run.1 = .ok a → R a (n - m.run.2.length) := by
  obtain ⟨bs, h1, h2, h3⟩ := h.at_ []
  have e : m.run = ((m ⟨[], none⟩).1, bs) := by
    show ((m ⟨[], none⟩).1, (m ⟨[], none⟩).2.out) = _
    rw [h1]; rfl
  rw [e]
  exact ⟨h2, h3⟩

/-! ## C105: applying clumps -/

theorem le_total {α : Type} (f : α → Nat) (l : List α) : ∀ x ∈ l, f x ≤ total f l := by
  induction l with
  | nil => nofun
  | cons y l ih =>
    intro x hx
    simp only [total]
    rcases List.mem_cons.1 hx with rfl | hx
    · omega
    · have := ih x hx; omega

theorem C105_sides {C T : Type} [TextClump C T] [Item T] [DecidableEq T] [LawfulItem T] (p : Profile) (cs : List C) (l : List T)
    (reverse : Bool) (old new : C → List T) (h : ∀ c ∈ cs, SideHas p c reverse (old c)) (h' : ∀ c ∈ cs, SideHas p c (!reverse) (new c))
    (r : Outcome Statistics) (out : List UInt8)
    (hr : (applyInto p cs l reverse).run = (r, out)) (hc : ∀ c ∈ cs, (contextLengths c).2 < 256)
    (hs : l.length + total (fun c => (old c).length) cs + 256 ≤ wordSize) :
    out.length ≤ sizeOfItems l + total (fun c => 24 + sizeOfItems (old c) + sizeOfItems (new c)) cs ∧
    ∀ st, r = .ok st → st.failed = 0 → out.length ≤ sizeOfItems l + total (fun c => sizeOfItems (new c)) cs := by
  have := (spends_applyInto (p := p) (reverse := reverse) old new l cs h h'
    (fun c hcc => by
      have h1 := hc c hcc
      have h2 := le_total (fun c => (old c).length) cs c hcc
      omega)
    (by omega)).run
  rw [hr] at this
  obtain ⟨h1, h2⟩ := this
  simp only at h1 h2
  refine ⟨h1, fun st hst hf => ?_⟩
  have h2 := h2 st hst hf
  have := total_add (fun c => 24 + sizeOfItems (old c)) (fun c => sizeOfItems (new c)) cs
  omega

/-- Whatever the clumps are (also hand-made ones), whatever the file is, in both directions, in both builds, and however it ends:
what is written is no larger than the file, both sides of every clump and 24 bytes of markers for every clump; if no clump
failed, no larger than the file and the new sides of the clumps. -/
theorem C105_text (p : Profile) (cs : List (DiffClump Str)) (l : List Str) (reverse : Bool) (r : Outcome Statistics) (out : List UInt8)
    (hr : (applyInto p cs l reverse).run = (r, out)) (hc : ∀ c ∈ cs, c.contextLengths.2 < 256)
    (hs : l.length + (cs.map fun c => (c.beforeSide reverse).items.length).sum + 256 ≤ wordSize) :
    out.length ≤ (bytesOf l).length + (cs.map fun c => 24 + (bytesOf c.before.items).length + (bytesOf c.after.items).length).sum ∧
    ∀ st, r = .ok st → st.failed = 0 →
      out.length ≤ (bytesOf l).length + (cs.map fun c => (bytesOf (c.afterSide reverse).items).length).sum := by
  rw [← total_eq] at hs
  have := C105_sides p cs l reverse (fun c => (c.beforeSide reverse).items) (fun c => (c.afterSide reverse).items)
    (fun c _ => sideHas_diffClump p c reverse)
    (fun c _ => by
      have := sideHas_diffClump p c (!reverse)
      cases reverse <;> exact this) r out hr hc hs
  rw [← total_eq, ← total_eq]
  refine ⟨Nat.le_trans this.1 (Nat.le_of_eq ?_), this.2⟩
  show sizeOfItems l + _ = sizeOfItems l + _
  congr 2
  funext c
  cases reverse <;> simp only [DiffClump.beforeSide, DiffClump.afterSide, sizeOfItems, if_true, if_false, Bool.false_eq_true]
  omega

/-- The same for byte patches; they have no markers. -/
theorem C105_bytes (p : Profile) (cs : List (DiffClump UInt8)) (l : List UInt8) (reverse : Bool) (r : Outcome Unit) (out : List UInt8)
    (hr : (byteApplyInto p cs l reverse).run = (r, out))
    (hs : l.length + (cs.map fun c => (c.beforeSide reverse).items.length).sum < wordSize) :
    out.length ≤ l.length + (cs.map fun c => (c.afterSide reverse).items.length).sum := by
  rw [← total_eq] at hs
  have := (spends_byteApplyInto p l reverse cs hs).run
  rw [hr] at this
  rw [← total_eq]
  exact this.1

/-- The same for the hunks of unified diffs. -/
theorem C105_unified (p : Profile) (cs : List UnifiedDiffClump) (l : List Str) (reverse : Bool) (r : Outcome Statistics)
    (out : List UInt8) (hr : (applyInto p cs l reverse).run = (r, out)) (hc : ∀ c ∈ cs, c.contextLengths.2 < 256)
    (hs : l.length + (cs.map fun c => (if reverse then c.afterLines else c.beforeLines).length).sum + 256 ≤ wordSize) :
    out.length ≤ (bytesOf l).length + (cs.map fun c => 24 + (bytesOf c.beforeLines).length + (bytesOf c.afterLines).length).sum ∧
    ∀ st, r = .ok st → st.failed = 0 →
      out.length ≤ (bytesOf l).length + (cs.map fun c => (bytesOf (if reverse then c.beforeLines else c.afterLines)).length).sum := by
  rw [← total_eq] at hs
  have := C105_sides p cs l reverse (fun c => if reverse then c.afterLines else c.beforeLines)
    (fun c => if reverse then c.beforeLines else c.afterLines) (fun c _ => sideHas_unified p c reverse)
    (fun c _ => by
      have := sideHas_unified p c (!reverse)
      cases reverse <;> exact this) r out hr hc hs
  rw [← total_eq, ← total_eq]
  refine ⟨Nat.le_trans this.1 (Nat.le_of_eq ?_), this.2⟩
  show sizeOfItems l + _ = sizeOfItems l + _
  congr 2
  funext c
  cases reverse <;> simp only [sizeOfItems, if_true, if_false, Bool.false_eq_true]
  omega

/-- The bound is reached: a clump that fits nowhere, and a file of three lines. -/
example :
    let c : DiffClump Str := ⟨(0, 0), ⟨0, [ln 'x']⟩, ⟨0, [ln 'y', ln 'z']⟩⟩
    let l : List Str := [ln 'a', ln 'b', ln 'c']
    ((applyInto .debug [c] l false).run.2.length = 36 ∧
    (bytesOf l).length + ([c].map fun c => 24 + (bytesOf c.before.items).length + (bytesOf c.after.items).length).sum = 36) ∧
    l.length + ([c].map fun c => (c.beforeSide false).items.length).sum + 256 ≤ wordSize := by
  decide +kernel

/-- The bound without failures is reached: lines are only added. -/
example :
    let c : DiffClump Str := ⟨(0, 0), ⟨1, []⟩, ⟨1, [ln 'y', ln 'z']⟩⟩
    let l : List Str := [ln 'a', ln 'b', ln 'c']
    (applyInto .debug [c] l false).run.1 = .ok { clean := 1 } ∧ (applyInto .debug [c] l false).run.2.length = 10 ∧
    (bytesOf l).length + ([c].map fun c => (bytesOf (c.afterSide false).items).length).sum = 10 := by
  decide +kernel

/-- A byte patch: a byte replaced by two. -/
example :
    let c : DiffClump UInt8 := ⟨(0, 0), ⟨1, [2]⟩, ⟨1, [7, 8]⟩⟩
    (byteApplyInto .debug [c] [1, 2, 3] false).run = (.ok (), [1, 7, 8, 3]) ∧
    ([1, 2, 3] : List UInt8).length + ([c].map fun c => (c.beforeSide false).items.length).sum < wordSize ∧
    ([1, 2, 3] : List UInt8).length + ([c].map fun c => (c.afterSide false).items.length).sum = 5 := by
  decide +kernel

/-- A hunk that replaces the second line of three by two others. -/
example :
    let c : UnifiedDiffClump := ⟨⟨⟨2, 1⟩, ⟨2, 2⟩⟩, [ln 'b'], [ln 'x', ln 'y'], (0, 0), 4⟩
    let l : List Str := [ln 'a', ln 'b', ln 'c']
    (applyInto .debug [c] l false).run = (.ok { fuzzy := 1 }, bytesOf [ln 'a', ln 'x', ln 'y', ln 'c']) ∧
    l.length + ([c].map fun c => (if false then c.afterLines else c.beforeLines).length).sum + 256 ≤ wordSize ∧
    (bytesOf l).length + ([c].map fun c => (bytesOf (if false then c.beforeLines else c.afterLines)).length).sum = 10 := by
  decide +kernel

/-! ## C106: what a patch file can do -/

open Json

theorem total_const {α : Type} (n : Nat) (l : List α) : total (fun _ => n) l = n * l.length := by
  induction l with
  | nil => rfl
  | cons x l ih => simp only [total, ih, List.length_cons, Nat.mul_add]; omega

theorem total_lineCost (l : List Str) : total (fun x => 1 + lineCost x) l = 3 * l.length + sizeOfItems l := by
  induction l with
  | nil => rfl
  | cons x l ih =>
    have : sizeOfItems (x :: l) = Str.size x + sizeOfItems l := by simp [sizeOfItems, bytesOf, Item.bytes, Str.size]
    simp only [total, ih, List.length_cons, this]
    simp only [lineCost]
    omega

/-- The text of a diff is at least as long as what is in it. -/
theorem fromReader_size {data : List UInt8} {d : Diff} (h : Diff.fromReader ⟨data, false⟩ = .ok d) : diffCost d ≤ data.length := by
  obtain ⟨s, j, rfl, hj, hd⟩ := (C88_language data d).1 h
  exact Nat.le_trans hd.size hj.size

/-- No file has 2^62 bytes. -/
def FS.Small (fs : FS) : Prop := ∀ i content, fs.node i = some (.file content) → content.length < 2 ^ 62

theorem FS.Small.at {fs : FS} (h : fs.Small) (path : Path) (r : Reader) (hr : fs.contentAt path = some r) : r.data.length < 2 ^ 62 := by
  unfold FS.contentAt at hr
  split at hr
  · cases hr
  · split at hr
    · next i _ content hc =>
      cases hr
      exact h _ _ hc
    · cases hr
      decide
    · cases hr

/-- The size of what reading a path delivers. -/
def FS.sizeAt (fs : FS) (path : Path) : Nat := ((fs.contentAt path).map fun r => r.data.length).getD 0

/-- How much a diff can add to a file. -/
def Diff.adds : Diff → Nat
  | .textChange d => (d.clumps.map fun c => 24 + (bytesOf c.before.items).length + (bytesOf c.after.items).length).sum
  | .byteChange d => (d.clumps.map fun c => c.before.items.length + c.after.items.length).sum
  | .textAdd d | .textRemove d => (bytesOf d.lines).length
  | .byteAdd d | .byteRemove d => d.bytes.length

theorem bytesOf_empty (l : List Str) (h : l.length = 0) : (bytesOf l).length = 0 := by rw [List.length_eq_zero_iff.1 h]; rfl

/-- What can be added compared with the text of the diff. -/
theorem Diff.adds_cost (d : Diff) : 11 * d.adds ≤ 12 * diffCost d := by
  cases d with
  | textChange t =>
    simp only [Diff.adds, diffCost, ← total_eq]
    refine total_le fun c _ => ?_
    simp only [clumpCost, snippetCost, total_lineCost, sizeOfItems]
    have := bytesOf_empty c.before.items
    have := bytesOf_empty c.after.items
    omega
  | byteChange t =>
    simp only [Diff.adds, diffCost, ← total_eq]
    refine total_le fun c _ => ?_
    simp only [clumpCost, snippetCost, total_const]
    omega
  | textAdd t => simp only [Diff.adds, diffCost, total_lineCost, sizeOfItems]; omega
  | textRemove t => simp only [Diff.adds, diffCost, total_lineCost, sizeOfItems]; omega
  | byteAdd t => simp only [Diff.adds, diffCost, total_const]; omega
  | byteRemove t => simp only [Diff.adds, diffCost, total_const]; omega

theorem leastItems_all {T : Type} (item : T → Json) (cost : T → Nat) (h : ∀ x, cost x ≤ least (item x)) (l : List T) :
    total (fun x => 1 + cost x) l ≤ leastItems (l.map item) := by
  induction l with
  | nil => exact Nat.le_refl _
  | cons x l ih =>
    have := h x
    simp only [total, List.map_cons, leastItems]
    omega

theorem ofClump_size {T : Type} (item : T → Json) (cost : T → Nat) (h : ∀ x, cost x ≤ least (item x)) (c : DiffClump T) :
    60 + total (fun x => 1 + cost x) c.before.items + total (fun x => 1 + cost x) c.after.items ≤ least (ofClump item c) := by
  have h1 := leastItems_all item cost h c.before.items
  have h2 := leastItems_all item cost h c.after.items
  simp only [ofClump, ofSnippet, least, leastItems, leastFields,
    show Str.size kStart = 5 from by decide, show Str.size kItems = 5 from by decide, show Str.size kBefore = 6 from by decide,
    show Str.size kAfter = 5 from by decide, show Str.size kContextLengths = 15 from by decide]
  omega

/-- What can be added compared with the text that `to_writer` writes. -/
theorem Diff.adds_written (d : Diff) : d.adds ≤ least (ofDiff d) := by
  have hline : ∀ x : Str, lineCost x ≤ least (.str x) := fun x => Nat.le_refl _
  have hbyte : ∀ x : UInt8, 1 ≤ least (ofByte x) := fun x => Nat.le_refl _
  cases d with
  | textChange t =>
    have h1 := leastItems_all (ofClump .str) _ (ofClump_size .str lineCost hline) t.clumps
    have h2 : 1 * total (fun c : DiffClump Str => 24 + (bytesOf c.before.items).length + (bytesOf c.after.items).length) t.clumps ≤
        1 * total (fun c => 1 + (60 + total (fun x => 1 + lineCost x) c.before.items + total (fun x => 1 + lineCost x) c.after.items)) t.clumps :=
      total_le fun c _ => ?_
    · simp only [Diff.adds, ← total_eq, ofDiff, least, leastFields]
      exact Nat.le_trans (by omega) (Nat.le_trans h1 (by omega))
    · simp only [total_lineCost, sizeOfItems]
      omega
  | byteChange t =>
    have h1 := leastItems_all (ofClump ofByte) _ (ofClump_size ofByte (fun _ => 1) hbyte) t.clumps
    have h2 : 1 * total (fun c : DiffClump UInt8 => c.before.items.length + c.after.items.length) t.clumps ≤
        1 * total (fun c => 1 + (60 + total (fun _ => 1 + 1) c.before.items + total (fun _ => 1 + 1) c.after.items)) t.clumps :=
      total_le fun c _ => ?_
    · simp only [Diff.adds, ← total_eq, ofDiff, least, leastFields]
      exact Nat.le_trans (by omega) (Nat.le_trans h1 (by omega))
    · simp only [total_const]
      omega
  | textAdd t =>
    have h1 := leastItems_all .str lineCost hline t.lines
    simp only [total_lineCost, sizeOfItems] at h1
    simp only [Diff.adds, ofDiff, least, leastFields]; omega
  | textRemove t =>
    have h1 := leastItems_all .str lineCost hline t.lines
    simp only [total_lineCost, sizeOfItems] at h1
    simp only [Diff.adds, ofDiff, least, leastFields]; omega
  | byteAdd t =>
    have h1 := leastItems_all ofByte (fun _ => 1) hbyte t.bytes
    simp only [total_const] at h1
    simp only [Diff.adds, ofDiff, least, leastFields]; omega
  | byteRemove t =>
    have h1 := leastItems_all ofByte (fun _ => 1) hbyte t.bytes
    simp only [total_const] at h1
    simp only [Diff.adds, ofDiff, least, leastFields]; omega

/-- What applying a diff writes. -/
theorem written_size {p : Profile} {rev : Bool} {d : Diff} {data old out : List UInt8} (h : Diff.fromReader ⟨data, false⟩ = .ok d)
    (hw : d.written p rev old out) (hs : old.length + 2 * data.length + 256 ≤ wordSize) : out.length ≤ old.length + d.adds := by
  have hsz := fromReader_size h
  have hin := (C88_rewritten _ _ h).1
  cases d with
  | textChange t =>
    obtain ⟨s, rfl, rfl⟩ := hw
    have hl := length_splitInclusive_le s
    have hb : (bytesOf (splitInclusive s)).length = (Str.bytes s).length := by
      show ((splitInclusive s).flatMap Str.bytes).length = _
      rw [flatMap_bytes, flatten_splitInclusive]
    simp only [diffCost] at hsz
    have hn : 1 * total (fun c : DiffClump Str => (c.beforeSide rev).items.length) t.clumps
        ≤ 1 * total (fun c => 1 + clumpCost lineCost c) t.clumps := by
      refine total_le fun c _ => ?_
      simp only [clumpCost, snippetCost, total_lineCost]
      cases rev <;> simp only [DiffClump.beforeSide, if_true, if_false, Bool.false_eq_true] <;> omega
    have h1 := (C105_text p t.clumps (splitInclusive s) rev _ _ rfl (fun c hc => (hin c hc).2.1) (by
      rw [← total_eq]; omega)).1
    rw [hb] at h1
    exact h1
  | byteChange t =>
    obtain rfl := hw
    have h2 := Diff.adds_cost (.byteChange t)
    simp only [Diff.adds, ← total_eq] at h2
    have hn : ∀ side : DiffClump UInt8 → Snippet UInt8, (∀ c, side c = c.before ∨ side c = c.after) →
        1 * total (fun c => (side c).items.length) t.clumps ≤ 1 * total (fun c => c.before.items.length + c.after.items.length) t.clumps := by
      intro side hside
      refine total_le fun c _ => ?_
      rcases hside c with h | h <;> rw [h] <;> omega
    have hn1 := hn (fun c => c.beforeSide rev) fun c => by cases rev <;> simp [DiffClump.beforeSide]
    have hn2 := hn (fun c => c.afterSide rev) fun c => by cases rev <;> simp [DiffClump.afterSide]
    have h1 := C105_bytes p t.clumps old rev _ _ rfl (by rw [← total_eq]; omega)
    simp only [Diff.adds]
    rw [← total_eq] at h1 ⊢
    change (byteApplyInto p t.clumps old rev ⟨[], none⟩).2.out.length ≤ _
    omega
  | _ => exact hw.elim

/-- What adding a file writes. -/
theorem creates_size {rev : Bool} {d : Diff} {content : List UInt8} {path : Path}
    (hc : d.creates rev = some (path, content)) : content.length ≤ d.adds := by
  cases d with
  | textChange t => cases hc
  | byteChange t => cases hc
  | _ t =>
    simp only [Diff.creates] at hc
    split at hc <;> first
      | cases hc; done
      | obtain ⟨-, rfl⟩ := Prod.mk.inj (Option.some.inj hc)
        exact Nat.le_refl _

theorem PatchedContent.written {p : Profile} {rev : Bool} {d : Diff} {old new : List UInt8} (h : PatchedContent p rev d old new) :
    d.written p rev old new := by
  cases d with
  | textChange t =>
    obtain ⟨s, st, h1, h2⟩ := h
    exact ⟨s, h1, by rw [h2]⟩
  | byteChange t => exact congrArg Prod.snd h
  | _ => exact h.elim

/-- Whatever the patch file is (also a hand-made one), whatever the files are, whichever operations fail, wherever the process is
killed: a file that `pw_patch` has written, also the temporary one, has at most the size of the file that is to be changed and what
the diff adds. -/
theorem C106_size (p : Profile) (temp patch : Path) (rev : Bool) (w : World)
    (hs : w.fs.Small) (i : Nat) (new : List UInt8)
    (hnew : ((pwPatch p temp patch rev).run w).2.fs.node i = some (.file new)) :
    w.fs.node i = some (.file new) ∨
    ∃ d, HoldsDiff w.fs patch d ∧
      new.length ≤ d.changed.elim 0 w.fs.sizeAt + d.adds := by
  by_cases hd : ∃ d, HoldsDiff w.fs patch d
  · obtain ⟨d, hd⟩ := hd
    obtain ⟨r, hr, hrd⟩ := hd
    have hsr := hs.at patch r hr
    have hr0 : r = ⟨r.data, false⟩ := by
      rcases FS.contentAt_fails hr with ⟨c, rfl⟩ | rfl
      · rfl
      · cases hrd
    rw [hr0] at hrd
    have hold : HoldsDiff w.fs patch d := ⟨r, hr, by rw [hr0]; exact hrd⟩
    cases hch : d.changed with
    | some target =>
      have big : ∀ old out, w.fs.contentAt target = some ⟨old, false⟩ → d.written p rev old out →
          out.length ≤ w.fs.sizeAt target + d.adds := by
        intro old out ho hw
        have h1 := hs.at target _ ho
        have h2 : w.fs.sizeAt target = old.length := by unfold FS.sizeAt; rw [ho]; rfl
        rw [h2]
        simp only at h1
        exact written_size hrd hw (by simp only [wordSize]; omega)
      have h1 := C46_atomic p temp patch target rev w d hold hch
      have h2 := C87_partial p temp patch target rev w d hold hch
      generalize (pwPatch p temp patch rev).run w = x at *
      obtain ⟨ended, w'⟩ := x
      simp only at h1 h2 hnew
      obtain ⟨-, e2, -, e4⟩ := h1
      by_cases hi : i = w.fs.entry target
      · subst hi
        rcases e4 with ⟨e4, -⟩ | ⟨-, old, new', e5, e6, e7⟩
        · exact .inl (by rw [← e4]; exact hnew)
        · rw [hnew] at e7
          cases e7
          exact .inr ⟨d, hold, by rw [hch]; exact big _ _ e5 e6.written⟩
      · by_cases hj : i = w.fs.entry temp
        · subst hj
          rcases h2 with h2 | ⟨-, -, old, out, n, f1, f2, f3⟩
          · exact .inl (by rw [← h2]; exact hnew)
          · rw [hnew] at f3
            cases f3
            refine .inr ⟨d, hold, ?_⟩
            rw [hch]
            have := big _ _ f1 f2
            have hl : (out.take n).length ≤ out.length := by simp; omega
            exact Nat.le_trans hl this
        · exact .inl (by rw [← e2 i hi hj]; exact hnew)
    | none =>
      cases hcr : d.creates rev with
      | some x =>
        obtain ⟨path, content⟩ := x
        have h1 := C47_create p temp patch path rev w d hold content hcr
        have h2 := creates_size hcr
        generalize (pwPatch p temp patch rev).run w = x at *
        obtain ⟨ended, w'⟩ := x
        simp only at h1 hnew
        obtain ⟨-, e2, -, e4⟩ := h1
        by_cases hi : i = w.fs.entry path
        · subst hi
          rcases e4 with e4 | ⟨n, e4⟩
          · exact .inl (by rw [← e4]; exact hnew)
          · rw [hnew] at e4
            cases e4
            refine .inr ⟨d, hold, ?_⟩
            rw [hch]
            have hl : (content.take n).length ≤ content.length := by simp; omega
            show _ ≤ 0 + _
            omega
        · exact .inl (by rw [← e2 i hi]; exact hnew)
      | none =>
        have hdel : ∃ path, d.deletes rev = some path := by
          cases d <;> cases rev <;> simp [Diff.deletes, Diff.creates, Diff.changed] at hcr hch ⊢
        obtain ⟨path, hdel⟩ := hdel
        have h1 := C47_delete p temp patch path rev w d hold hdel
        generalize (pwPatch p temp patch rev).run w = x at *
        obtain ⟨ended, w'⟩ := x
        simp only at h1 hnew
        obtain ⟨-, e2, e3⟩ := h1
        by_cases hi : i = w.fs.entry path
        · subst hi
          rcases e3 with ⟨-, e3⟩ | ⟨-, e3⟩
          · rw [hnew] at e3; cases e3
          · exact .inl (by rw [← e3]; exact hnew)
        · exact .inl (by rw [← e2 i hi]; exact hnew)
  · have := C46_unreadable p temp patch rev w fun r hr d h => hd ⟨d, r, hr, h⟩
    generalize (pwPatch p temp patch rev).run w = x at *
    obtain ⟨ended, w'⟩ := x
    simp only at this hnew
    exact .inl (by rw [← this.2.1]; exact hnew)

/-- The property: a file written by `pw_patch` is no larger than the file that is changed and the patch file together. -/
def C106_statement : Prop :=
  ∀ (p : Profile) (temp patch : Path) (rev : Bool) (w : World),
    w.fs.Small →
    ∀ (i : Nat) (new : List UInt8), ((pwPatch p temp patch rev).run w).2.fs.node i = some (.file new) →
      w.fs.node i = some (.file new) ∨
      ∃ d, HoldsDiff w.fs patch d ∧ new.length ≤ d.changed.elim 0 w.fs.sizeAt + w.fs.sizeAt patch

theorem HoldsDiff.text {fs : FS} {patch : Path} {d : Diff} (h : HoldsDiff fs patch d) :
    ∃ data, fs.contentAt patch = some ⟨data, false⟩ ∧ Diff.fromReader ⟨data, false⟩ = .ok d ∧ fs.sizeAt patch = data.length := by
  obtain ⟨r, hr, hrd⟩ := h
  rcases FS.contentAt_fails hr with ⟨c, rfl⟩ | rfl
  · exact ⟨c, hr, hrd, by unfold FS.sizeAt; rw [hr]; rfl⟩
  · cases hrd

theorem HoldsDiff.sameDiff {fs : FS} {patch : Path} {d d' : Diff} (h : HoldsDiff fs patch d) (h' : HoldsDiff fs patch d') : d = d' := by
  obtain ⟨r, h1, h2⟩ := h
  obtain ⟨r', h3, h4⟩ := h'
  rw [h1] at h3
  cases h3
  rw [h2] at h4
  exact Outcome.ok_inj h4

/-- For every patch file: the file that is changed, and 12/11 of the size of the patch file. -/
theorem C106_partial (p : Profile) (temp patch : Path) (rev : Bool) (w : World)
    (hs : w.fs.Small) (i : Nat) (new : List UInt8)
    (hnew : ((pwPatch p temp patch rev).run w).2.fs.node i = some (.file new)) :
    w.fs.node i = some (.file new) ∨
    ∃ d, HoldsDiff w.fs patch d ∧ 11 * new.length ≤ 11 * d.changed.elim 0 w.fs.sizeAt + 12 * w.fs.sizeAt patch := by
  refine (C106_size p temp patch rev w hs i new hnew).imp_right fun ⟨d, hd, h⟩ => ⟨d, hd, ?_⟩
  obtain ⟨data, -, h2, h3⟩ := hd.text
  have := fromReader_size h2
  have := d.adds_cost
  omega

/-- For patch files as `pw_diff` writes them: the file that is changed and the patch file together. -/
theorem C106_written (p : Profile) (temp patch : Path) (rev : Bool) (w : World) (d : Diff) (hd : d.InRange)
    (hp : ∀ path ∈ d.paths, IsUtf8 path) (hfile : w.fs.contentAt patch = some ⟨d.toWriter.run.2, false⟩)
    (hs : w.fs.Small) (i : Nat) (new : List UInt8)
    (hnew : ((pwPatch p temp patch rev).run w).2.fs.node i = some (.file new)) :
    w.fs.node i = some (.file new) ∨ new.length ≤ d.changed.elim 0 w.fs.sizeAt + w.fs.sizeAt patch := by
  have hw : d.toWriter.run.2 = d.fileContent := by rw [(toWriter_fromReader d hd hp).1]; rfl
  rw [hw] at hfile
  refine (C106_size p temp patch rev w hs i new hnew).imp_right fun ⟨d', hd', h⟩ => ?_
  obtain ⟨data, h1, h2, h3⟩ := hd'.text
  rw [hfile] at h1
  obtain rfl : d.fileContent = data := congrArg Reader.data (Option.some.inj h1)
  rw [show Diff.fromReader ⟨d.fileContent, false⟩ = .ok d from (toWriter_fromReader d hd hp).2] at h2
  cases h2
  have h4 := (readDocument_iff _ _).1 (readDocument_text (ofDiff d) (storable_ofDiff d hd hp))
  have h5 : least (ofDiff d) ≤ d.fileContent.length := h4.size
  have := d.adds_written
  omega

/-- The hypotheses of `C106_written`: a file of three bytes becomes one of four, with the patch file of `C46`. -/
example : exampleDiff.InRange ∧ (∀ path ∈ exampleDiff.paths, IsUtf8 path) ∧
    exampleFS.contentAt [67] = some ⟨exampleDiff.toWriter.run.2, false⟩ ∧ exampleDiff.changed = some [65] ∧
    exampleFS.sizeAt [65] = 3 ∧ PatchedContent .release false exampleDiff [1, 2, 3] [1, 7, 8, 3] ∧ exampleDiff.adds = 3 := by
  have h1 : exampleDiff.InRange := by
    intro c hc
    simp only [List.mem_singleton] at hc
    subst hc
    simp [DiffClump.InRange, wordSize]
  have h2 : ∀ path ∈ exampleDiff.paths, IsUtf8 path := by
    intro path h
    simp only [exampleDiff, Diff.paths, List.mem_cons, List.not_mem_nil, or_false] at h
    rcases h with rfl | rfl
    · exact ⟨['A'], by decide⟩
    · exact ⟨['B'], by decide⟩
  refine ⟨h1, h2, ?_, rfl, rfl, ?_, rfl⟩
  · rw [(toWriter_fromReader _ h1 h2).1]
    rfl
  · show (byteApplyInto _ _ _ _).run = _
    decide +kernel

theorem fromReader_of_read {s : Str} {d : Diff} (h : (readDocument s).bind toDiff = some d) : Diff.fromReader ⟨s.bytes, false⟩ = .ok d := by
  unfold Diff.fromReader
  simp only [Bool.false_eq_true, if_false, decodeUtf8_bytes]
  cases hj : readDocument s with
  | none => rw [hj] at h; cases h
  | some j =>
    rw [hj] at h
    simp only [Option.bind_some] at h
    simp only [h]

/-- A patch file of 575 bytes without the names of fields: a clump that fits beyond the end, and 24 that fail. -/
def hostileText : Str :=
  "{\"TextChange\":[\"A\",\"\",[[[0,0],[5,[]],[5,[]]]".toList ++
    (List.replicate 24 ",[[0,0],[0,[]],[0,[]]]".toList).flatten ++ "]]}".toList

def hostileDiff : TextChangeDiff :=
  ⟨[65], [], ⟨(0, 0), ⟨5, []⟩, ⟨5, []⟩⟩ :: List.replicate 24 ⟨(0, 0), ⟨0, []⟩, ⟨0, []⟩⟩⟩

theorem hostileText_length : hostileText.bytes.length = 575 := by decide +kernel

theorem hostileText_reads : (readDocument hostileText).bind toDiff = some (.textChange hostileDiff) := by decide +kernel

theorem hostileDiff_run : (applyInto .debug hostileDiff.clumps [] false).run.1 = .ok { fuzzy := 1, failed := 24 } ∧
    (applyInto .debug hostileDiff.clumps [] false).run.2.length = 576 := by decide +kernel

/-- An empty file becomes larger than the patch file: 576 bytes of markers. -/
theorem C106_refuted : ∃ (w : World) (new : List UInt8), w.fs.contentAt [65] = some ⟨[], false⟩ ∧
    w.fs.contentAt [67] = some ⟨hostileText.bytes, false⟩ ∧
    (pwPatch .debug [84] [67] false).run w = (.exited 0, { w with fs := w.fs.set (w.fs.entry [65]) (some (.file new)) }) ∧
    new.length = 576 ∧ hostileText.bytes.length = 575 ∧ ¬ C106_statement := by
  obtain ⟨e1, e2, e3, e3', e4, e5, e6, e6', e7, e8⟩ := FS.ofFiles_two [] hostileText.bytes
  have hlen := hostileText_length
  have hread := hostileText_reads
  have hst := hostileDiff_run
  have hsmall : (FS.ofFiles [([65], []), ([67], hostileText.bytes)]).Small := by
    intro i content h
    match i with
    | 0 => rw [e4] at h; cases h; decide
    | 1 => rw [e5] at h; cases h; rw [hlen]; decide
    | _ + 2 => simp [FS.ofFiles] at h
  generalize FS.ofFiles [([65], []), ([67], hostileText.bytes)] = fs at *
  have held : HoldsDiff fs [67] (.textChange hostileDiff) := ⟨_, e8, fromReader_of_read hread⟩
  generalize hrun : (applyInto .debug hostileDiff.clumps [] false).run = x
  rw [hrun] at hst
  obtain ⟨r, new⟩ := x
  obtain ⟨rfl, hn⟩ : r = _ ∧ new.length = 576 := hst
  have main := C46_normal .debug [84] [67] [65] false ⟨fs, [], []⟩ _ held rfl rfl (by rw [e3, e6']) (old := []) (new := new) e7
    ⟨[], _, rfl, hrun⟩
  refine ⟨⟨fs, [], []⟩, new, e7, e8, main, hn, hlen, fun h => ?_⟩
  have := h .debug [84] [67] false ⟨fs, [], []⟩ hsmall 0 new (by rw [main]; simp [FS.set, e1])
  rcases this with h | ⟨d, hd, h⟩
  · rw [e4] at h
    cases h
    cases hn
  · have hz : fs.sizeAt [65] = 0 ∧ fs.sizeAt [67] = 575 := by
      unfold FS.sizeAt
      rw [e7, e8]
      exact ⟨rfl, hlen⟩
    have hdd : d = .textChange hostileDiff := hd.sameDiff held
    subst hdd
    simp only [Diff.changed, Option.elim, hostileDiff, hz.1, hz.2] at h
    omega

example := C105_text .debug [(⟨(0, 0), ⟨0, [ln 'a']⟩, ⟨0, [ln 'b']⟩⟩ : DiffClump Str), ⟨(0, 0), ⟨3, [ln 'x']⟩, ⟨3, [ln 'y']⟩⟩] [ln 'c', ln 'a', ln 'd'] false
  (.ok { fuzzy := 1, failed := 1 }) (Str.bytes "c\nb\n<<<<<<<\nx\n=======\ny\n>>>>>>>\nd\n".toList) (by decide +kernel) (by decide) (by decide)
example := C105_bytes .debug [⟨(1, 0), ⟨3, [4, 5]⟩, ⟨3, [4, 8, 9]⟩⟩] [1, 2, 3, 4, 5, 6] false (.ok ()) [1, 2, 3, 4, 8, 9, 6] (by decide +kernel) (by decide)

end PwDiff
