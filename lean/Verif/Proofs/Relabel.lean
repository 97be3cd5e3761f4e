import Verif.Proofs.Written

/-! # Patching does not look at lines other than to compare them -/

namespace PwDiff

open ChangeBasics TextClump

/-- A part of the output: an item, or a marker. -/
inductive Piece (T : Type) where
  | item (x : T)
  | mark (b : List UInt8)

def Piece.map {T U : Type} (f : T → U) : Piece T → Piece U
  | .item x => .item (f x)
  | .mark b => .mark b

def Piece.bytes {T : Type} [Item T] : Piece T → List UInt8
  | .item x => Item.bytes x
  | .mark b => b

/-- The bytes of a list of pieces. -/
def render {T : Type} [Item T] (pieces : List (Piece T)) : List UInt8 := pieces.flatMap Piece.bytes

/-- The items of the pieces satisfy `P`, the rest are markers. -/
def Pieces {T : Type} (P : T → Prop) (pieces : List (Piece T)) : Prop :=
  ∀ x ∈ pieces, match x with
    | .item x => P x
    | .mark b => b = markerBefore ∨ b = markerMiddle ∨ b = markerAfter

/-- Two outcomes of the same kind with related results. -/
inductive Alike {α α' : Type} (R : α → α' → Prop) : Outcome α → Outcome α' → Prop
  | ok {a a'} : R a a' → Alike R (.ok a) (.ok a')
  | ioErr : Alike R .ioErr .ioErr
  | panic : Alike R .panic .panic
  | diverge : Alike R .diverge .diverge

theorem Alike.refl {α : Type} {R : α → α → Prop} (h : ∀ a, R a a) (o : Outcome α) : Alike R o o := by
  cases o
  · exact .ok (h _)
  · exact .ioErr
  · exact .panic
  · exact .diverge

variable {T U : Type} [Item T] [Item U]

/-- Two computations that write the same up to the names of items. -/
structure WSim (f : T → U) (P : T → Prop) {α α' : Type} (m : WM α) (m' : WM α') (R : α → α' → Prop) : Prop where
  at_ : ∀ out out', ∃ pieces, Pieces P pieces ∧ (m ⟨out, none⟩).2 = ⟨out ++ render pieces, none⟩ ∧
    (m' ⟨out', none⟩).2 = ⟨out' ++ render (pieces.map (Piece.map f)), none⟩ ∧
    Alike R (m ⟨out, none⟩).1 (m' ⟨out', none⟩).1

section calculus

variable {f : T → U} {P : T → Prop} {α α' β β' : Type}

theorem WSim.lift {o : Outcome α} {o' : Outcome α'} {R : α → α' → Prop} (h : Alike R o o') : WSim f P (WM.lift o) (WM.lift o') R :=
  ⟨fun out out' => ⟨[], nofun, by simp [WM.lift, render], by simp [WM.lift, render], h⟩⟩

theorem WSim.liftM {o : Outcome α} {o' : Outcome α'} {R : α → α' → Prop} (h : Alike R o o') :
    WSim f P (MonadLiftT.monadLift o : WM α) (MonadLiftT.monadLift o' : WM α') R := WSim.lift h

theorem WSim.pure {a : α} {a' : α'} {R : α → α' → Prop} (h : R a a') : WSim f P (Pure.pure a : WM α) (Pure.pure a' : WM α') R :=
  ⟨fun out out' => ⟨[], nofun, by simp [Pure.pure, render], by simp [Pure.pure, render], .ok h⟩⟩

theorem WSim.bind {m : WM α} {m' : WM α'} {g : α → WM β} {g' : α' → WM β'} {R : α → α' → Prop} {S : β → β' → Prop}
    (h : WSim f P m m' R) (hg : ∀ a a', R a a' → WSim f P (g a) (g' a') S) : WSim f P (m >>= g) (m' >>= g') S := by
  constructor
  intro out out'
  obtain ⟨ps, h0, h1, h2, h3⟩ := h.at_ out out'
  change ∃ pieces, _ ∧ (WM.bind m g _).2 = _ ∧ (WM.bind m' g' _).2 = _ ∧ Alike S (WM.bind m g _).1 (WM.bind m' g' _).1
  unfold WM.bind
  generalize m ⟨out, none⟩ = x at h1 h3
  generalize m' ⟨out', none⟩ = x' at h2 h3
  obtain ⟨o, w⟩ := x
  obtain ⟨o', w'⟩ := x'
  simp only at h1 h2 h3
  subst h1
  subst h2
  cases h3 with
  | ok hr =>
    obtain ⟨qs, e0, e1, e2, e3⟩ := (hg _ _ hr).at_ (out ++ render ps) (out' ++ render (ps.map (Piece.map f)))
    refine ⟨ps ++ qs, ?_, ?_, ?_, e3⟩
    · intro x hx
      rcases List.mem_append.1 hx with h | h
      · exact h0 x h
      · exact e0 x h
    · rw [e1]; simp [render]
    · rw [e2]; simp [render]
  | ioErr => exact ⟨ps, h0, rfl, rfl, .ioErr⟩
  | panic => exact ⟨ps, h0, rfl, rfl, .panic⟩
  | diverge => exact ⟨ps, h0, rfl, rfl, .diverge⟩

/-- Running a computation that does not write first. -/
theorem WSim.pass {o o' : Outcome α} {g : α → WM β} {g' : α → WM β'} {S : β → β' → Prop} (e : o' = o)
    (hg : ∀ a, WSim f P (g a) (g' a) S) : WSim f P ((MonadLiftT.monadLift o : WM α) >>= g) ((MonadLiftT.monadLift o' : WM α) >>= g') S := by
  subst e
  refine WSim.bind (WSim.lift (.refl (fun _ => rfl) _)) fun a a' e => ?_
  subst e
  exact hg a

theorem WSim.mark {b : List UInt8} (h : b = markerBefore ∨ b = markerMiddle ∨ b = markerAfter) :
    WSim f P (writeAll b) (writeAll b) fun _ _ => True :=
  ⟨fun out out' => ⟨[.mark b], by intro x hx; rw [List.mem_singleton.1 hx]; exact h, by simp [writeAll, render, Piece.bytes],
    by simp [writeAll, render, Piece.bytes, Piece.map], .ok trivial⟩⟩

theorem WSim.items {l : List T} (h : ∀ x ∈ l, P x) :
    WSim f P (writeAll (bytesOf l)) (writeAll (bytesOf (l.map f))) fun _ _ => True := by
  refine ⟨fun out out' => ⟨l.map .item, ?_, ?_, ?_, .ok trivial⟩⟩
  · intro x hx
    obtain ⟨y, hy, rfl⟩ := List.mem_map.1 hx
    exact h y hy
  · show (⟨out ++ bytesOf l, none⟩ : Writer) = _
    simp [render, bytesOf, List.flatMap_map, Piece.bytes]
  · show (⟨out' ++ bytesOf (l.map f), none⟩ : Writer) = _
    simp [render, bytesOf, List.flatMap_map, Piece.bytes, Piece.map, Function.comp_def]

theorem WSim.lines {l : List T} (h : ∀ x ∈ l, P x) : WSim f P (writeLines l) (writeLines (l.map f)) fun _ _ => True := by
  induction l with
  | nil => exact WSim.pure trivial
  | cons x l ih =>
    rw [List.map_cons]
    unfold writeLines
    refine WSim.bind (R := fun _ _ => True) ?_ fun _ _ _ => ih fun y hy => h y (by simp [hy])
    have := WSim.items (f := f) (P := P) (l := [x]) fun y hy => h y (by rw [List.mem_singleton.1 hy]; simp)
    simpa [bytesOf] using this

end calculus

section seq

variable [DecidableEq T] [LawfulItem T] [DecidableEq U] [LawfulItem U] {f : T → U} {P : T → Prop}

/-- A consumable sequence with renamed items. -/
def ConsumableSeq.map (f : T → U) (pd : ConsumableSeq T) : ConsumableSeq U := ⟨pd.sequence.map f, pd.consumed⟩

omit [Item T] [Item U] [DecidableEq T] [LawfulItem T] [DecidableEq U] [LawfulItem U] in
theorem slice_map (l : List T) (a b : Nat) : Alike (fun x x' => x' = x.map f ∧ ∀ y ∈ x, y ∈ l) (slice l a b) (slice (l.map f) a b) := by
  unfold slice
  rw [List.length_map]
  split
  · exact .ok ⟨by simp, fun y hy => List.mem_of_mem_drop (List.mem_of_mem_take hy)⟩
  · exact .panic

theorem sim_writeInto (p : Profile) {l : List T} (h : ∀ x ∈ l, P x) (r : Range) :
    WSim f P (writeInto p l r) (writeInto p (l.map f) r) fun _ _ => True := by
  unfold writeInto
  refine WSim.pass ?_ fun _ => ?_
  · rw [List.length_map]
  refine WSim.bind (WSim.lift (slice_map (f := f) l r.start r.fin)) fun x x' hx => ?_
  obtain ⟨rfl, hx⟩ := hx
  rw [LawfulItem.writeItems_eq, LawfulItem.writeItems_eq]
  exact WSim.items fun y hy => h y (hx y hy)

theorem sim_writeIntoUpto (p : Profile) {pd : ConsumableSeq T} (h : ∀ x ∈ pd.sequence, P x) (upto : Nat) :
    WSim f P (pd.writeIntoUpto p upto) ((pd.map f).writeIntoUpto p upto) fun a a' => a' = a.map f ∧ a.sequence = pd.sequence := by
  unfold ConsumableSeq.writeIntoUpto
  refine WSim.pass ?_ fun _ => ?_
  · simp only [ConsumableSeq.map, List.length_map]
  by_cases hc : pd.consumed < upto
  · rw [if_pos hc, if_pos (show (pd.map f).consumed < upto from hc)]
    exact WSim.bind (sim_writeInto p h _) fun _ _ _ => WSim.pure ⟨rfl, rfl⟩
  · rw [if_neg hc, if_neg (show ¬(pd.map f).consumed < upto from hc)]
    exact WSim.pure ⟨rfl, rfl⟩

theorem sim_writeRemainder (p : Profile) {pd : ConsumableSeq T} (h : ∀ x ∈ pd.sequence, P x) :
    WSim f P (pd.writeRemainder p) ((pd.map f).writeRemainder p) fun _ _ => True := by
  unfold ConsumableSeq.writeRemainder
  have : (pd.map f).rangeFrom (pd.map f).consumed = pd.rangeFrom pd.consumed := by simp [ConsumableSeq.map, ConsumableSeq.rangeFrom]
  rw [this]
  exact WSim.bind (sim_writeInto p h _) fun _ _ _ => WSim.pure trivial

end seq

/-! ## Clumps -/

section clump

variable {C C' : Type} [TextClump C T] [TextClump C' U]

/-- `c'` is `c` with renamed items, which satisfy `P`. -/
structure Renamed (p : Profile) (f : T → U) (P : T → Prop) (c : C) (c' : C') : Prop where
  start : ∀ r, beforeStart c' r = beforeStart c r
  fin : ∀ r, beforeEnd p c' r = beforeEnd p c r
  length : ∀ r, beforeLength p c' r = beforeLength p c r
  context : contextLengths c' = contextLengths c
  lines : ∀ range r, Alike (fun ls ls' => ls' = ls.map f ∧ ∀ x ∈ ls, P x) (beforeLines p c range r) (beforeLines p c' range r)

variable {p : Profile} {f : T → U} {P : T → Prop} {c : C} {c' : C'}

omit [Item T] [Item U] in
theorem Renamed.adjustedStart (h : Renamed p f P c c') (offset : Int) (reductions : Option (Nat × Nat)) (reverse : Bool) :
    beforeAdjustedStart p c' offset reductions reverse = beforeAdjustedStart p c offset reductions reverse := by
  unfold beforeAdjustedStart
  rw [h.start]

omit [Item T] [Item U] in
theorem Renamed.adjustedLength (h : Renamed p f P c c') (reductions : Option (Nat × Nat)) (reverse : Bool) :
    beforeAdjustedLength p c' reductions reverse = beforeAdjustedLength p c reductions reverse := by
  unfold beforeAdjustedLength
  rw [h.length]

omit [Item T] [Item U] in
theorem Renamed.range (h : Renamed p f P c c') (reductions : Option (Nat × Nat)) (reverse : Bool) :
    beforeRange p c' reductions reverse = beforeRange p c reductions reverse := by
  unfold beforeRange
  rw [h.start, h.fin]

omit [Item T] [Item U] in
theorem Renamed.myRange (h : Renamed p f P c c') (reductions : Option (Nat × Nat)) (reverse : Bool) :
    myBeforeRange p c' reductions reverse = myBeforeRange p c reductions reverse := by
  unfold myBeforeRange
  rw [h.length]

variable [DecidableEq T] [DecidableEq U]

omit [Item T] [Item U] in
theorem zip_all_map (hf : ∀ x y, P x → P y → f x = f y → x = y) {a b : List T} (ha : ∀ x ∈ a, P x) (hb : ∀ x ∈ b, P x) :
    ((a.map f).zip (b.map f)).all (fun (l, r) => l == r) = (a.zip b).all (fun (l, r) => l == r) := by
  induction a generalizing b with
  | nil => rfl
  | cons x a ih =>
    cases b with
    | nil => rfl
    | cons y b =>
      simp only [List.map_cons, List.zip_cons_cons, List.all_cons]
      rw [ih (fun z hz => ha z (by simp [hz])) (fun z hz => hb z (by simp [hz]))]
      congr 1
      rw [Bool.eq_iff_iff]
      simp only [beq_iff_eq]
      exact ⟨hf x y (ha x (by simp)) (hb y (by simp)), fun h => by rw [h]⟩

omit [Item T] [Item U] in
theorem Renamed.isSubsequenceInAt (h : Renamed p f P c c') {l : List T} (hl : ∀ x ∈ l, P x)
    (hf : ∀ x y, P x → P y → f x = f y → x = y) (pos : Nat) (reductions : Option (Nat × Nat)) (reverse : Bool) :
    beforeIsSubsequenceInAt p c' (l.map f) pos reductions reverse = beforeIsSubsequenceInAt p c l pos reductions reverse := by
  unfold beforeIsSubsequenceInAt
  rw [h.myRange, List.length_map]
  congr 1
  funext range
  congr 1
  funext fin
  split
  · rfl
  · have h1 := h.lines (some range) reverse
    revert h1
    generalize beforeLines p c (some range) reverse = o
    generalize beforeLines p c' (some range) reverse = o'
    intro h1
    cases h1 with
    | ok h1 =>
      obtain ⟨rfl, h1⟩ := h1
      simp only [Outcome.ok_bind]
      have h2 := slice_map (f := f) l pos fin
      unfold subsequence
      revert h2
      generalize slice l pos fin = o
      generalize slice (l.map f) pos fin = o'
      intro h2
      cases h2 with
      | ok h2 =>
        obtain ⟨rfl, h2⟩ := h2
        next mine theirs =>
        simp only [Outcome.ok_bind]
        show Outcome.ok _ = Outcome.ok _
        congr 1
        exact zip_all_map hf h1 fun y hy => hl y (h2 y hy)
      | _ => rfl
    | _ => rfl

omit [Item T] [Item U] in
theorem Renamed.reductionLoop (h : Renamed p f P c c') {l : List T} (hl : ∀ x ∈ l, P x)
    (hf : ∀ x y, P x → P y → f x = f y → x = y) (start : Int) (reverse : Bool) (rs : List Nat) :
    reductionLoop p c' (l.map f) start reverse rs = PwDiff.reductionLoop p c l start reverse rs := by
  induction rs with
  | nil => rfl
  | cons r rs ih =>
    unfold PwDiff.reductionLoop
    rw [ih, h.context]
    simp only [h.isSubsequenceInAt hl hf]

omit [Item T] [Item U] in
theorem Renamed.willApply (h : Renamed p f P c c') {l : List T} (hl : ∀ x ∈ l, P x)
    (hf : ∀ x y, P x → P y → f x = f y → x = y) (offset : Int) (reverse : Bool) :
    willApply p c' (l.map f) offset reverse = PwDiff.willApply p c l offset reverse := by
  unfold PwDiff.willApply
  rw [h.adjustedStart, h.context]
  simp only [h.isSubsequenceInAt hl hf, h.reductionLoop hl hf]

omit [Item T] [Item U] in
theorem Renamed.nearbyLoop (h : Renamed p f P c c') {pd : ConsumableSeq T} (hl : ∀ x ∈ pd.sequence, P x)
    (hf : ∀ x y, P x → P y → f x = f y → x = y) (notAfter : Nat) (offset : Int) (reverse : Bool) (fuel : Nat) (i : Int) (b d : Bool) :
    nearbyLoop p c' (pd.map f) notAfter offset reverse fuel i b d = PwDiff.nearbyLoop p c pd notAfter offset reverse fuel i b d := by
  have hw := fun o r => h.willApply hl hf o r
  induction fuel generalizing i b d with
  | zero => rfl
  | succ fuel ih =>
    unfold PwDiff.nearbyLoop nearbyBackward nearbyForward
    simp only [ih, h.adjustedStart]
    simp only [ConsumableSeq.map, hw]

/-- The next clump is renamed too. -/
def RenamedNext (p : Profile) (f : T → U) (P : T → Prop) (c : Option C) (c' : Option C') : Prop :=
  match c, c' with
  | none, none => True
  | some c, some c' => Renamed p f P c c'
  | _, _ => False

omit [Item T] [Item U] in
theorem Renamed.willApplyNearby (h : Renamed p f P c c') {next : Option C} {next' : Option C'} (hn : RenamedNext p f P next next')
    {pd : ConsumableSeq T} (hl : ∀ x ∈ pd.sequence, P x)
    (hf : ∀ x y, P x → P y → f x = f y → x = y) (offset : Int) (reverse : Bool) :
    willApplyNearby p c' (pd.map f) next' offset reverse = PwDiff.willApplyNearby p c pd next offset reverse := by
  unfold PwDiff.willApplyNearby
  have e : nearbyLimit p c' (pd.map f) next' offset reverse = nearbyLimit p c pd next offset reverse := by
    unfold nearbyLimit
    cases next with
    | none =>
      cases next' with
      | none => simp only [h.context, h.adjustedLength, ConsumableSeq.map, List.length_map]
      | some _ => exact hn.elim
    | some n =>
      cases next' with
      | none => exact hn.elim
      | some n' => simp only [h.context, h.adjustedLength, Renamed.adjustedStart (show Renamed p f P n n' from hn)]
  simp only [e, h.nearbyLoop hl hf]

section writing

variable {f : T → U} {P : T → Prop}

omit [DecidableEq T] [DecidableEq U] in
theorem sim_beforeWriteInto (h : Renamed p f P c c') (reductions : Option (Nat × Nat)) (reverse : Bool) :
    WSim f P (beforeWriteInto p c reductions reverse) (beforeWriteInto p c' reductions reverse) fun _ _ => True := by
  unfold beforeWriteInto
  cases reductions with
  | none =>
    exact WSim.bind (WSim.liftM (h.lines none reverse)) fun x x' hx => by
      obtain ⟨rfl, hx⟩ := hx
      exact WSim.lines hx
  | some r =>
    refine WSim.pass ?_ fun range => ?_
    · exact h.range _ _
    · exact WSim.bind (WSim.liftM (h.lines (some range) reverse)) fun x x' hx => by
        obtain ⟨rfl, hx⟩ := hx
        exact WSim.lines hx

omit [DecidableEq T] [DecidableEq U] in
theorem sim_failure (h : Renamed p f P c c') (reverse : Bool) :
    WSim f P (writeFailureDataInto p c reverse) (writeFailureDataInto p c' reverse) fun _ _ => True := by
  unfold writeFailureDataInto
  refine WSim.bind (WSim.mark (.inl rfl)) fun _ _ _ => ?_
  refine WSim.bind (sim_beforeWriteInto h _ _) fun _ _ _ => ?_
  refine WSim.bind (WSim.mark (.inr (.inl rfl))) fun _ _ _ => ?_
  refine WSim.bind (sim_beforeWriteInto h _ _) fun _ _ _ => ?_
  exact WSim.mark (.inr (.inr rfl))

variable [LawfulItem T] [LawfulItem U]

/-- The same state, up to the names of the items. -/
def SamePd (f : T → U) (l : List T) (pd : ConsumableSeq T) (pd' : ConsumableSeq U) : Prop := pd' = pd.map f ∧ pd.sequence = l

theorem sim_clumpApplyInto (h : Renamed p f P c c') {pd : ConsumableSeq T} (hl : ∀ x ∈ pd.sequence, P x) (offset : Int)
    (reductions : Option (Nat × Nat)) (reverse : Bool) :
    WSim f P (clumpApplyInto p c pd offset reductions reverse) (clumpApplyInto p c' (pd.map f) offset reductions reverse)
      (SamePd f pd.sequence) := by
  unfold clumpApplyInto
  refine WSim.pass ?_ fun s => ?_
  · exact h.adjustedStart _ _ _
  refine WSim.bind (sim_writeIntoUpto p hl _) fun pd1 pd1' hp => ?_
  obtain ⟨rfl, hp⟩ := hp
  refine WSim.bind (sim_beforeWriteInto h _ _) fun _ _ _ => ?_
  refine WSim.pass ?_ fun n => ?_
  · exact h.adjustedLength _ _
  refine WSim.liftM ?_
  unfold ConsumableSeq.advanceConsumedBy
  show Alike _ (uadd p pd1.consumed n >>= _) (uadd p pd1.consumed n >>= _)
  cases uadd p pd1.consumed n with
  | ok m => exact .ok ⟨rfl, hp⟩
  | ioErr => exact .ioErr
  | panic => exact .panic
  | diverge => exact .diverge

theorem sim_alreadyAppliedInto (h : Renamed p f P c c') {pd : ConsumableSeq T} (hl : ∀ x ∈ pd.sequence, P x) (offset : Int)
    (reductions : Option (Nat × Nat)) (reverse : Bool) :
    WSim f P (alreadyAppliedInto p c pd offset reductions reverse) (alreadyAppliedInto p c' (pd.map f) offset reductions reverse)
      (SamePd f pd.sequence) := by
  unfold alreadyAppliedInto
  refine WSim.pass ?_ fun s => ?_
  · exact h.adjustedStart _ _ _
  refine WSim.pass ?_ fun s => ?_
  · exact h.adjustedLength _ _
  refine WSim.pass rfl fun s => ?_
  exact sim_writeIntoUpto p hl _

/-- The same state of the loop, up to the names of the items. -/
def SameStep (f : T → U) (l : List T) (r : ConsumableSeq T × Int × Statistics) (r' : ConsumableSeq U × Int × Statistics) : Prop :=
  SamePd f l r.1 r'.1 ∧ r'.2 = r.2

theorem sim_applyStep (h : Renamed p f P c c') {next : Option C} {next' : Option C'} (hn : RenamedNext p f P next next')
    {l : List T} {pd : ConsumableSeq T} (hl : ∀ x ∈ l, P x) (hp : pd.sequence = l)
    (hf : ∀ x y, P x → P y → f x = f y → x = y) (reverse : Bool) (offset : Int) (st : Statistics) :
    WSim f P (applyStep p l reverse c next pd offset st) (applyStep p (l.map f) reverse c' next' (pd.map f) offset st)
      (SameStep f l) := by
  subst hp
  have leaf : ∀ {m : WM (ConsumableSeq T)} {m' : WM (ConsumableSeq U)} (o : Int) (s : Statistics),
      WSim f P m m' (SamePd f pd.sequence) →
      WSim f P (m >>= fun x => (Pure.pure (x, o, s) : WM (ConsumableSeq T × Int × Statistics)))
        (m' >>= fun x => (Pure.pure (x, o, s) : WM (ConsumableSeq U × Int × Statistics))) (SameStep f pd.sequence) :=
    fun o s hm => WSim.bind hm fun _ _ hr => WSim.pure ⟨hr, rfl⟩
  unfold applyStep
  refine WSim.pass ?_ fun a => ?_
  · exact h.willApply hl hf _ _
  match a with
  | some .cleanly => exact leaf _ _ (sim_clumpApplyInto h hl _ _ _)
  | some (.withReductions r) => exact leaf _ _ (sim_clumpApplyInto h hl _ _ _)
  | none =>
    refine WSim.pass ?_ fun a => ?_
    · exact h.willApplyNearby hn hl hf _ _
    match a with
    | some (adj, w) =>
      refine WSim.pass rfl fun o => ?_
      cases w with
      | cleanly => exact leaf _ _ (sim_clumpApplyInto h hl _ _ _)
      | withReductions r => exact leaf _ _ (sim_clumpApplyInto h hl _ _ _)
    | none =>
      refine WSim.pass ?_ fun a => ?_
      · exact h.willApply hl hf _ _
      match a with
      | some .cleanly => exact leaf _ _ (sim_alreadyAppliedInto h hl _ _ _)
      | some (.withReductions r) => exact leaf _ _ (sim_alreadyAppliedInto h hl _ _ _)
      | none =>
        refine WSim.pass ?_ fun a => ?_
        · exact h.willApplyNearby hn hl hf _ _
        match a with
        | some (adj, w) =>
          refine WSim.pass rfl fun o => ?_
          cases w with
          | cleanly => exact leaf _ _ (sim_alreadyAppliedInto h hl _ _ _)
          | withReductions r => exact leaf _ _ (sim_alreadyAppliedInto h hl _ _ _)
        | none =>
          exact WSim.bind (sim_failure h _) fun _ _ _ => WSim.pure ⟨⟨rfl, rfl⟩, rfl⟩

/-- Two lists of clumps, the second with renamed items. -/
inductive AllRenamed (p : Profile) (f : T → U) (P : T → Prop) : List C → List C' → Prop
  | nil : AllRenamed p f P [] []
  | cons {c c' cs cs'} : Renamed p f P c c' → AllRenamed p f P cs cs' → AllRenamed p f P (c :: cs) (c' :: cs')

omit [Item T] [Item U] [DecidableEq T] [DecidableEq U] [LawfulItem T] [LawfulItem U] in
theorem AllRenamed.next {cs : List C} {cs' : List C'} (h : AllRenamed p f P cs cs') : RenamedNext p f P cs.head? cs'.head? := by
  cases h with
  | nil => trivial
  | cons h _ => exact h

theorem sim_applyLoop {l : List T} (hl : ∀ x ∈ l, P x) (hf : ∀ x y, P x → P y → f x = f y → x = y) {cs : List C} {cs' : List C'}
    (h : AllRenamed p f P cs cs') (reverse : Bool) {pd : ConsumableSeq T} (hp : pd.sequence = l) (offset : Int) (st : Statistics) :
    WSim f P (applyLoop p l reverse cs pd offset st) (applyLoop p (l.map f) reverse cs' (pd.map f) offset st)
      fun r r' => SamePd f l r.1 r'.1 ∧ r'.2 = r.2 := by
  induction h generalizing pd offset st with
  | nil => exact WSim.pure ⟨⟨rfl, hp⟩, rfl⟩
  | cons h hs ih =>
    unfold applyLoop
    refine WSim.bind (sim_applyStep h hs.next hl hp hf reverse offset st) fun r r' hr => ?_
    obtain ⟨pd1, o, s⟩ := r
    obtain ⟨pd1', o', s'⟩ := r'
    obtain ⟨⟨e1, e2⟩, e3⟩ := hr
    simp only at e1 e2 e3
    cases e3
    subst e1
    exact ih e2 o s

/-- Renaming the lines of the file and of the clumps renames the lines of the result. -/
theorem sim_applyInto {l : List T} (hl : ∀ x ∈ l, P x) (hf : ∀ x y, P x → P y → f x = f y → x = y) {cs : List C} {cs' : List C'}
    (h : AllRenamed p f P cs cs') (reverse : Bool) :
    WSim f P (applyInto p cs l reverse) (applyInto p cs' (l.map f) reverse) fun st st' => st' = st := by
  unfold applyInto
  refine WSim.bind (sim_applyLoop hl hf h reverse (pd := ConsumableSeq.new l) rfl 0 {}) fun r r' hr => ?_
  obtain ⟨pd1, s⟩ := r
  obtain ⟨pd1', s'⟩ := r'
  obtain ⟨⟨e1, e2⟩, e3⟩ := hr
  simp only at e1 e2 e3
  subst e1
  subst e3
  exact WSim.bind (sim_writeRemainder p (by rw [e2]; exact hl)) fun _ _ _ => WSim.pure rfl

omit [Item T] [Item U] [LawfulItem T] [LawfulItem U] in
theorem isAlreadyAppliedLoop_renamed {pd : ConsumableSeq T} (hl : ∀ x ∈ pd.sequence, P x)
    (hf : ∀ x y, P x → P y → f x = f y → x = y) {cs : List C} {cs' : List C'}
    (h : AllRenamed p f P cs cs') (reverse : Bool) (offset : Int) :
    isAlreadyAppliedLoop p (pd.sequence.map f) reverse (pd.map f) cs' offset =
      isAlreadyAppliedLoop p pd.sequence reverse pd cs offset := by
  induction h generalizing offset with
  | nil => rfl
  | cons h hs ih =>
    unfold isAlreadyAppliedLoop clumpIsAlreadyApplied clumpIsAlreadyAppliedNearby
    simp only [ih, h.willApply hl hf, h.willApplyNearby hs.next hl hf]

omit [Item T] [Item U] [LawfulItem T] [LawfulItem U] in
theorem isAlreadyApplied_renamed {l : List T} (hl : ∀ x ∈ l, P x)
    (hf : ∀ x y, P x → P y → f x = f y → x = y) {cs : List C} {cs' : List C'}
    (h : AllRenamed p f P cs cs') (reverse : Bool) :
    isAlreadyApplied p cs' (l.map f) reverse = isAlreadyApplied p cs l reverse :=
  isAlreadyAppliedLoop_renamed (pd := ConsumableSeq.new l) hl hf h reverse 0

end writing

end clump

end PwDiff
