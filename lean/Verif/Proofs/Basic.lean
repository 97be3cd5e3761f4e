import Verif.Spec

/-! # Lemmas about outcomes, checked arithmetic and writers -/

namespace PwDiff

/-! ## Checked arithmetic -/

theorem uadd_ok {p : Profile} {a b : Nat} (h : a + b < wordSize) : uadd p a b = .ok (a + b) := by
  simp [uadd, h]

theorem usub_ok {p : Profile} {a b : Nat} (h : b ≤ a) : usub p a b = .ok (a - b) := by
  simp [usub, h]

theorem iadd_ok {p : Profile} {a b : Int} (h1 : -(halfWord : Int) ≤ a + b) (h2 : a + b < halfWord) :
    iadd p a b = .ok (a + b) := by
  unfold iadd; rw [if_pos ⟨h1, h2⟩]

theorem asIsize_of_lt {a : Nat} (h : a < halfWord) : asIsize a = (a : Int) := by
  simp [asIsize, h]

theorem asUsize_of_nonneg {i : Int} (h : 0 ≤ i) : asUsize i = i.toNat := by
  simp [asUsize, h]

theorem slice_ok {α : Type} {l : List α} {a b : Nat} (h1 : a ≤ b) (h2 : b ≤ l.length) :
    slice l a b = .ok ((l.drop a).take (b - a)) := by
  simp [slice, h1, h2]

theorem slice_eq_ok_iff {α : Type} {l : List α} {a b : Nat} {r : List α} :
    slice l a b = .ok r ↔ a ≤ b ∧ b ≤ l.length ∧ r = (l.drop a).take (b - a) := by
  unfold slice
  split
  · next h => simp [h.1, h.2, eq_comm]
  · next h => simp; intro h1 h2; exact absurd ⟨h1, h2⟩ h

theorem slice_cases {α : Type} (l : List α) (a b : Nat) :
    slice l a b = .panic ∨ (a ≤ b ∧ b ≤ l.length ∧ slice l a b = .ok ((l.drop a).take (b - a))) := by
  unfold slice
  split
  · next h => right; exact ⟨h.1, h.2, rfl⟩
  · left; rfl

/-! ## The outcome monad -/

namespace Outcome

instance : LawfulMonad Outcome := LawfulMonad.mk'
  (id_map := by intro α x; cases x <;> rfl)
  (pure_bind := by intros; rfl)
  (bind_assoc := by intro α β γ x f g; cases x <;> rfl)

theorem bind_eq_ok {α β : Type} {m : Outcome α} {f : α → Outcome β} {b : β} :
    (m >>= f) = ok b ↔ ∃ a, m = ok a ∧ f a = ok b := by
  cases m <;> simp

end Outcome

/-! ## The writer monad -/

namespace WM

variable {α β : Type}

theorem pure_apply (a : α) (w : Writer) : (pure a : WM α) w = (.ok a, w) := rfl
theorem lift_apply (o : Outcome α) (w : Writer) : (lift o) w = (o, w) := rfl

instance : LawfulMonad WM := LawfulMonad.mk'
  (id_map := by
    intro α x; funext w
    show WM.bind x (fun a => pure (id a)) w = x w
    unfold WM.bind
    cases h : x w with
    | mk o w' => cases o <;> rfl)
  (pure_bind := by intros; rfl)
  (bind_assoc := by
    intro α β γ x f g; funext w
    show WM.bind (WM.bind x f) g w = WM.bind x (fun a => WM.bind (f a) g) w
    unfold WM.bind
    cases h : x w with
    | mk o w' => cases o <;> rfl)

@[simp] theorem monadLift_eq (o : Outcome α) : (monadLift o : WM α) = lift o := rfl
@[simp] theorem liftM_eq (o : Outcome α) : (liftM o : WM α) = lift o := rfl
@[simp] theorem lift_ok (a : α) : (lift (.ok a) : WM α) = pure a := rfl
@[simp] theorem lift_ok_bind (a : α) (f : α → WM β) : (lift (.ok a) >>= f) = f a := rfl
@[simp] theorem lift_panic_bind (f : α → WM β) : (lift .panic >>= f) = lift .panic := rfl
@[simp] theorem lift_ioErr_bind (f : α → WM β) : (lift .ioErr >>= f) = lift .ioErr := rfl
@[simp] theorem lift_diverge_bind (f : α → WM β) : (lift .diverge >>= f) = lift .diverge := rfl

/-- Normal form of a writing computation: write `bs`, then end as `o`. -/
def emit (bs : List UInt8) (o : Outcome α) : WM α := writeAll bs >>= fun _ => lift o

theorem writeAll_nil : writeAll [] = pure () := by
  funext w
  cases w with
  | mk out room => cases room <;> simp [writeAll, pure_apply]

theorem writeAll_append (xs ys : List UInt8) : writeAll (xs ++ ys) = (writeAll xs >>= fun _ => writeAll ys) := by
  funext ⟨out, room⟩
  show _ = WM.bind (writeAll xs) (fun _ => writeAll ys) _
  unfold WM.bind
  cases room with
  | none => simp [writeAll]
  | some r =>
    simp only [writeAll, List.length_append]
    by_cases h : xs.length ≤ r
    · by_cases h2 : xs.length + ys.length ≤ r
      · have h3 : ys.length ≤ r - xs.length := by omega
        simp [h, h2, h3]; omega
      · have h3 : ¬ ys.length ≤ r - xs.length := by omega
        simp [h, h2, h3, List.take_append, List.take_of_length_le h]
    · have h2 : ¬ xs.length + ys.length ≤ r := by omega
      have h4 : r - xs.length = 0 := by omega
      simp [h, h2, List.take_append, h4]

theorem lift_eq_emit (o : Outcome α) : lift o = emit [] o := by
  simp [emit, writeAll_nil]
theorem pure_eq_emit (a : α) : (pure a : WM α) = emit [] (.ok a) := by
  simp [emit, writeAll_nil]
theorem writeAll_eq_emit (bs : List UInt8) : writeAll bs = emit bs (.ok ()) := by
  have : (writeAll bs >>= fun (u : Unit) => (pure u : WM Unit)) = writeAll bs := bind_pure _
  simp [emit]

theorem emit_bind_ok (bs : List UInt8) (a : α) (f : α → WM β) {bs' : List UInt8} {o : Outcome β}
    (h : f a = emit bs' o) : (emit bs (.ok a) >>= f) = emit (bs ++ bs') o := by
  simp [emit, writeAll_append, h, bind_assoc]

theorem emit_bind_pure (bs : List UInt8) (a : α) (f : α → β) :
    (emit bs (.ok a) >>= fun x => (pure (f x) : WM β)) = emit bs (.ok (f a)) := by
  rw [emit_bind_ok bs a _ (pure_eq_emit (f a))]
  simp

theorem emit_bind_panic (bs : List UInt8) (f : α → WM β) : (emit bs .panic >>= f) = emit bs .panic := by
  simp [emit, bind_assoc]
theorem emit_bind_ioErr (bs : List UInt8) (f : α → WM β) : (emit bs .ioErr >>= f) = emit bs .ioErr := by
  simp [emit, bind_assoc]
theorem emit_bind_diverge (bs : List UInt8) (f : α → WM β) : (emit bs .diverge >>= f) = emit bs .diverge := by
  simp [emit, bind_assoc]

theorem run_emit (bs : List UInt8) (o : Outcome α) : (emit bs o).run = (o, bs) := by
  show ((WM.bind (writeAll bs) (fun _ => lift o) _).1, _) = _
  rfl

theorem emit_inj {bs bs' : List UInt8} {o o' : Outcome α} (h : emit bs o = emit bs' o') : bs = bs' ∧ o = o' := by
  have := congrArg run h
  rw [run_emit, run_emit] at this
  exact ⟨(Prod.mk.inj this).2, (Prod.mk.inj this).1⟩

/-- A computation that only uses the writer through `write_all` and does not look at it. -/
def Norm (m : WM α) : Prop := ∃ bs o, m = emit bs o

theorem Norm.eq_run {m : WM α} (h : Norm m) : m = emit m.run.2 m.run.1 := by
  obtain ⟨bs, o, rfl⟩ := h
  rw [run_emit]

theorem norm_emit (bs : List UInt8) (o : Outcome α) : Norm (emit bs o) := ⟨bs, o, rfl⟩
theorem norm_lift (o : Outcome α) : Norm (lift o) := ⟨[], o, lift_eq_emit o⟩
theorem norm_pure (a : α) : Norm (pure a : WM α) := ⟨[], _, pure_eq_emit a⟩
theorem norm_writeAll (bs : List UInt8) : Norm (writeAll bs) := ⟨bs, _, writeAll_eq_emit bs⟩

theorem Norm.bind {m : WM α} {f : α → WM β} (hm : Norm m) (hf : ∀ a, Norm (f a)) : Norm (m >>= f) := by
  obtain ⟨bs, o, rfl⟩ := hm
  cases o with
  | ok a =>
    obtain ⟨bs', o', h⟩ := hf a
    exact ⟨bs ++ bs', o', emit_bind_ok bs a f h⟩
  | panic => exact ⟨bs, .panic, emit_bind_panic bs f⟩
  | ioErr => exact ⟨bs, .ioErr, emit_bind_ioErr bs f⟩
  | diverge => exact ⟨bs, .diverge, emit_bind_diverge bs f⟩

/-- What a normal computation does on an arbitrary writer: nothing but writing its output; if the room suffices the
outcome is the one on a writer that never fails, otherwise it is an io error and exactly the room is filled. -/
theorem emit_apply (bs : List UInt8) (o : Outcome α) (w : Writer) :
    emit bs o w = match w.room with
      | none => (o, ⟨w.out ++ bs, none⟩)
      | some r => if bs.length ≤ r then (o, ⟨w.out ++ bs, some (r - bs.length)⟩)
                  else (.ioErr, ⟨w.out ++ bs.take r, some 0⟩) := by
  obtain ⟨out, room⟩ := w
  show WM.bind (writeAll bs) (fun _ => lift o) _ = _
  unfold WM.bind
  cases room with
  | none => simp [writeAll, lift]
  | some r => by_cases h : bs.length ≤ r <;> simp [writeAll, lift, h]

end WM

/-! ## Lawful items -/

/-- What all generic theorems use about an item type; proved below for `Str` and `UInt8`. -/
class LawfulItem (T : Type) [DecidableEq T] [Item T] : Prop where
  writeItems_eq : ∀ l : List T, Item.writeItems l = writeAll (l.flatMap Item.bytes)
  generateFrom_eq : ∀ (l : List T) (x : T),
    Item.generateFrom l x = if x ∈ l then some (positions l x) else none

@[simp] theorem bytesOf_nil {T : Type} [Item T] : bytesOf ([] : List T) = [] := rfl
@[simp] theorem bytesOf_append {T : Type} [Item T] (l m : List T) : bytesOf (l ++ m) = bytesOf l ++ bytesOf m := by
  simp [bytesOf]

theorem writeStrs_eq (l : List Str) : writeStrs l = writeAll (l.flatMap Str.bytes) := by
  induction l with
  | nil => simp [writeStrs, WM.writeAll_nil]
  | cons s rest ih => simp [writeStrs, ih, WM.writeAll_append]

section positions
variable {T : Type} [DecidableEq T]

theorem positions_append_singleton (l : List T) (y x : T) :
    positions (l ++ [y]) x = positions l x ++ (if x = y then [l.length] else []) := by
  unfold positions
  rw [List.length_append, List.length_singleton, List.range_succ, List.filter_append]
  congr 1
  · apply List.filter_congr
    intro i hi
    simp at hi
    rw [List.getElem?_append_left hi]
  · by_cases h : x = y
    · subst h; simp
    · simp [h, Ne.symm h]

theorem mem_positions {l : List T} {x : T} {i : Nat} : i ∈ positions l x ↔ l[i]? = some x := by
  unfold positions
  simp
  intro h
  exact (List.getElem?_eq_some_iff.1 h).1

theorem positions_eq_nil_iff (l : List T) (x : T) : positions l x = [] ↔ x ∉ l := by
  rw [List.eq_nil_iff_forall_not_mem, List.mem_iff_getElem?]
  simp only [mem_positions, not_exists]

theorem positions_sorted (l : List T) (x : T) : (positions l x).Pairwise (· < ·) :=
  List.Pairwise.sublist List.filter_sublist List.pairwise_lt_range

/-- Loop invariant of `StringItemIndices::generate_from`. -/
theorem mapIndicesLoop_eq (rest done : List T) (m : Indices T)
    (hm : ∀ x, m x = if x ∈ done then some (positions done x) else none) (x : T) :
    mapIndicesLoop rest done.length m x =
      if x ∈ done ++ rest then some (positions (done ++ rest) x) else none := by
  induction rest generalizing done m with
  | nil => simp [mapIndicesLoop, hm]
  | cons y rest ih =>
    have key : ∀ m' : Indices T, (∀ x, m' x = if x ∈ done ++ [y] then some (positions (done ++ [y]) x) else none) →
        mapIndicesLoop rest (done.length + 1) m' x =
          if x ∈ done ++ y :: rest then some (positions (done ++ y :: rest) x) else none := by
      intro m' hm'
      have := ih (done ++ [y]) m' hm'
      simpa using this
    unfold mapIndicesLoop
    have hy := hm y
    cases hv : m y with
    | some vec =>
      apply key
      intro z
      by_cases hz : z = y
      · subst hz
        rw [hv] at hy
        by_cases hd : z ∈ done
        · simp [hd] at hy
          simp [Indices.set, positions_append_singleton, hy]
        · simp [hd] at hy
      · simp [Indices.set, hz, hm, positions_append_singleton]
    | none =>
      apply key
      intro z
      by_cases hz : z = y
      · subst hz
        rw [hv] at hy
        by_cases hd : z ∈ done
        · simp [hd] at hy
        · simp [Indices.set, positions_append_singleton, (positions_eq_nil_iff done z).2 hd]
      · simp [Indices.set, hz, hm, positions_append_singleton]

theorem mapIndices_eq (l : List T) (x : T) :
    mapIndices l x = if x ∈ l then some (positions l x) else none := by
  have := mapIndicesLoop_eq l [] (fun _ => none) (by simp) x
  simpa [mapIndices] using this

end positions

theorem byteTableLoop_eq (rest done : List UInt8) (t : UInt8 → List Nat) (ht : ∀ x, t x = positions done x)
    (x : UInt8) : byteTableLoop rest done.length t x = positions (done ++ rest) x := by
  induction rest generalizing done t with
  | nil => simp [byteTableLoop, ht]
  | cons y rest ih =>
    have := ih (done ++ [y]) (fun z => if z = y then t z ++ [done.length] else t z) (by
      intro z
      by_cases hz : z = y <;> simp [hz, ht, positions_append_singleton])
    simpa [byteTableLoop] using this

theorem byteIndices_eq (l : List UInt8) (x : UInt8) :
    byteIndices l x = if x ∈ l then some (positions l x) else none := by
  have h := byteTableLoop_eq l [] (fun _ => []) (by simp [positions]) x
  simp at h
  unfold byteIndices
  simp only [h]
  by_cases hx : x ∈ l
  · have := mt (positions_eq_nil_iff l x).1 (by simpa using hx)
    simp [hx, this]
  · have := (positions_eq_nil_iff l x).2 hx
    simp [hx, this]

instance : LawfulItem Str where
  writeItems_eq := writeStrs_eq
  generateFrom_eq := mapIndices_eq

theorem flatMap_singleton_id {α : Type} (l : List α) : (l.flatMap fun x => [x]) = l := by
  induction l with
  | nil => rfl
  | cons x l ih => simp [List.flatMap_cons, ih]

instance : LawfulItem UInt8 where
  writeItems_eq l := by
    show writeAll l = _
    rw [show (l.flatMap (Item.bytes : UInt8 → List UInt8)) = l from flatMap_singleton_id l]
  generateFrom_eq := byteIndices_eq

end PwDiff
