import Verif.Props.Relabel
import Verif.Props.Context
import Verif.Props.Mirror
import Verif.Props.Count
import Verif.Proofs.UnifiedBack

/-! # C128: a long common passage separates what comes before it from what comes after it -/

namespace PwDiff

variable {T : Type}

/-- The block, further on in both files. -/
def CommonSubsequence.shift (x y : Nat) (c : CommonSubsequence) : CommonSubsequence := ⟨c.b + x, c.a + y, c.n⟩

/-- The change, further on in both files. -/
def Change.shift (x y : Nat) : Change → Change
  | .noChange c => .noChange (c.shift x y)
  | .delete r s => .delete ⟨r.start + x, r.fin + x⟩ (s + y)
  | .insert s r => .insert (s + x) ⟨r.start + y, r.fin + y⟩
  | .replace r s => .replace ⟨r.start + x, r.fin + x⟩ ⟨s.start + y, s.fin + y⟩

section moving

variable {before after before' after' : List T} {bs be as ae x y : Nat}

/-- The same pairs in a region are equal as in the region further on. -/
def SameRegion (before after before' after' : List T) (bs be as ae x y : Nat) : Prop :=
  ∀ j i, bs ≤ j → j < be → as ≤ i → i < ae → (Hit before after j i ↔ Hit before' after' (j + x) (i + y))

theorem SameRegion.run (h : SameRegion before after before' after' bs be as ae x y) {j i n : Nat} (h1 : bs ≤ j) (h2 : as ≤ i)
    (h3 : 0 < n → j + n ≤ be) (h4 : 0 < n → i + n ≤ ae) : CommonRun before after j i n ↔ CommonRun before' after' (j + x) (i + y) n := by
  constructor
  · intro hr t ht
    have := (h (j + t) (i + t) (by omega) (by omega) (by omega) (by omega)).1 (hr t ht)
    rwa [Nat.add_right_comm, Nat.add_right_comm i] at this
  · intro hr t ht
    apply (h (j + t) (i + t) (by omega) (by omega) (by omega) (by omega)).2
    have := hr t ht
    rwa [Nat.add_right_comm, Nat.add_right_comm i] at this

theorem IsBlock.move (h : SameRegion before after before' after' bs be as ae x y) {c : CommonSubsequence}
    (hc : IsBlock before after ⟨bs, be⟩ ⟨as, ae⟩ c) :
    IsBlock before' after' ⟨bs + x, be + x⟩ ⟨as + y, ae + y⟩ (c.shift x y) := by
  obtain ⟨n, e, h1, h2, h3⟩ := hc
  have h0 := h1.pos
  have i1 := h1.inOld
  have i2 := h1.inNew
  simp only at i1 i2
  refine ⟨n, e, ⟨h0, ?_, ?_, ?_, ?_, ?_⟩, ⟨?_, ?_, ?_⟩, h3⟩
  · simp only [CommonSubsequence.shift]; omega
  · simp only [CommonSubsequence.shift]; omega
  · exact (h.run i1.1 i2.1 (fun _ => i1.2) (fun _ => i2.2)).1 h1.run
  · intro j i k e1 e2 e3 e4 hr
    simp only at e1 e2 e3 e4
    by_cases hk : k = 0
    · omega
    · refine h1.longest (j - x) (i - y) k (by simp only; omega) (by simp only; omega) (by simp only; omega) (by simp only; omega) ?_
      refine (h.run (by omega) (by omega) (by omega) (by omega)).2 ?_
      rwa [Nat.sub_add_cancel (by omega), Nat.sub_add_cancel (by omega)]
  · intro j i e1 e2 e3 e4 hr
    simp only [CommonSubsequence.shift] at e1 e2 e3 e4 ⊢
    have := h1.first (j - x) (i - y) (by simp only; omega) (by simp only; omega) (by simp only; omega) (by simp only; omega) (by
      refine (h.run (by omega) (by omega) (by omega) (by omega)).2 ?_
      rwa [Nat.sub_add_cancel (by omega), Nat.sub_add_cancel (by omega)])
    omega
  · have h5 := h2.inside
    simp only at h5
    have := (h.run (j := c.b + n + 1) (i := c.a + n + 1) (n := e) (by omega) (by omega) (fun q => (h5 q).1) (fun q => (h5 q).2)).1 h2.run
    simp only [CommonSubsequence.shift]
    rwa [show c.b + x + n + 1 = c.b + n + 1 + x by omega, show c.a + y + n + 1 = c.a + n + 1 + y by omega]
  · intro he
    have := h2.inside he
    simp only [CommonSubsequence.shift] at this ⊢
    omega
  · intro e1 e2 hh
    simp only [CommonSubsequence.shift] at e1 e2 hh
    refine h2.stop (by simp only; omega) (by simp only; omega) ?_
    refine (h _ _ (by omega) (by omega) (by omega) (by omega)).2 ?_
    rwa [show c.b + n + 1 + e + x = c.b + x + n + 1 + e by omega, show c.a + n + 1 + e + y = c.a + y + n + 1 + e by omega]

theorem IsBlock.bounds {c : CommonSubsequence} (hc : IsBlock before after ⟨bs, be⟩ ⟨as, ae⟩ c) :
    bs ≤ c.b ∧ as ≤ c.a ∧ c.b + c.n ≤ be ∧ c.a + c.n ≤ ae := by
  obtain ⟨n, e, h1, h2, h3⟩ := hc
  have i1 := h1.inOld
  have i2 := h1.inNew
  have h5 := h2.inside
  simp only at i1 i2 h5
  by_cases he : e = 0
  · omega
  · have := h5 (by omega)
    omega

theorem Decomp.move {d : List CommonSubsequence} (hd : Decomp before after bs be as ae d)
    (h : SameRegion before after before' after' bs be as ae x y) :
    Decomp before' after' (bs + x) (be + x) (as + y) (ae + y) (d.map (CommonSubsequence.shift x y)) := by
  induction hd with
  | leaf h1 h2 h3 =>
    refine .leaf (by omega) (by omega) fun j i e1 e2 e3 e4 hh => h3 (j - x) (i - y) (by omega) (by omega) (by omega) (by omega) ?_
    apply (h _ _ (by omega) (by omega) (by omega) (by omega)).2
    rwa [Nat.sub_add_cancel (by omega), Nat.sub_add_cancel (by omega)]
  | node c hc hl hr ihl ihr =>
    have hb := hc.bounds
    rw [List.map_append, List.map_cons]
    refine .node _ (hc.move h) (ihl ?_) ?_
    · intro j i e1 e2 e3 e4
      exact h j i e1 (by omega) e3 (by omega)
    · have := ihr (fun j i e1 e2 e3 e4 => h j i (by omega) e2 (by omega) e4)
      simp only [CommonSubsequence.shift]
      rwa [Nat.add_right_comm, Nat.add_right_comm c.a]

end moving

theorem covers_shift {c : CommonSubsequence} {x y j i : Nat} :
    (c.shift x y).Covers j i ↔ ∃ j' i', j = j' + x ∧ i = i' + y ∧ c.Covers j' i' := by
  constructor
  · rintro ⟨t, h1, h2, h3⟩
    simp only [CommonSubsequence.shift] at h1 h2 h3
    exact ⟨c.b + t, c.a + t, by omega, by omega, t, h1, rfl, rfl⟩
  · rintro ⟨j', i', rfl, rfl, t, h1, rfl, rfl⟩
    exact ⟨t, h1, by simp only [CommonSubsequence.shift]; omega, by simp only [CommonSubsequence.shift]; omega⟩

theorem covered_shift {d : List CommonSubsequence} {x y j i : Nat} :
    Covered (d.map (CommonSubsequence.shift x y)) j i ↔ ∃ j' i', j = j' + x ∧ i = i' + y ∧ Covered d j' i' := by
  constructor
  · rintro ⟨c, hc, h⟩
    obtain ⟨c', hc', rfl⟩ := List.mem_map.1 hc
    obtain ⟨j', i', e1, e2, h3⟩ := covers_shift.1 h
    exact ⟨j', i', e1, e2, c', hc', h3⟩
  · rintro ⟨j', i', e1, e2, c, hc, h⟩
    exact ⟨_, List.mem_map_of_mem hc, covers_shift.2 ⟨j', i', e1, e2, h⟩⟩

theorem kept_shift {cs : List Change} {x y j i : Nat} :
    Kept (cs.map (Change.shift x y)) j i ↔ ∃ j' i', j = j' + x ∧ i = i' + y ∧ Kept cs j' i' := by
  constructor
  · rintro ⟨c, hc, h⟩
    obtain ⟨c', hc', e⟩ := List.mem_map.1 hc
    cases c' <;> simp only [Change.shift, Change.noChange.injEq, reduceCtorEq] at e
    subst e
    obtain ⟨j', i', e1, e2, h3⟩ := covers_shift.1 h
    exact ⟨j', i', e1, e2, _, hc', h3⟩
  · rintro ⟨j', i', e1, e2, c, hc, h⟩
    exact ⟨_, List.mem_map_of_mem (f := Change.shift x y) hc, covers_shift.2 ⟨j', i', e1, e2, h⟩⟩

theorem Tiles.shift {i j ie je : Nat} {cs : List Change} (x y : Nat) (h : Tiles i j cs ie je) :
    Tiles (i + x) (j + y) (cs.map (Change.shift x y)) (ie + x) (je + y) := by
  induction cs generalizing i j with
  | nil => obtain ⟨rfl, rfl⟩ := h; exact ⟨rfl, rfl⟩
  | cons c cs ih =>
    obtain ⟨rfl, rfl, h1, h2, h3⟩ := h
    have := ih h3
    have e1 : (c.shift x y).old = ⟨c.old.start + x, c.old.fin + x⟩ := by
      cases c <;> simp only [Change.shift, Change.old, CommonSubsequence.shift, Nat.add_right_comm]
    have e2 : (c.shift x y).new = ⟨c.new.start + y, c.new.fin + y⟩ := by
      cases c <;> simp only [Change.shift, Change.new, CommonSubsequence.shift, Nat.add_right_comm]
    rw [List.map_cons]
    unfold Tiles
    rw [e1, e2]
    exact ⟨rfl, rfl, Nat.add_le_add_right h1 _, Nat.add_le_add_right h2 _, this⟩

theorem proper_shift {c : Change} (x y : Nat) (h : c.Proper) : (c.shift x y).Proper := by
  cases c <;> simp only [Change.shift, Change.Proper, CommonSubsequence.shift] at * <;> omega

theorem isNoChange_shift (c : Change) (x y : Nat) : (c.shift x y).isNoChange = c.isNoChange := by
  cases c <;> rfl

theorem Alternating.shift {cs : List Change} (x y : Nat) (h : Alternating cs) : Alternating (cs.map (Change.shift x y)) := by
  induction cs with
  | nil => trivial
  | cons c cs ih =>
    cases cs with
    | nil => trivial
    | cons d cs =>
      refine ⟨?_, ih h.2⟩
      rw [isNoChange_shift, isNoChange_shift]
      exact h.1


/-- If the first pair of a region belongs to a block, it is equal. -/
theorem Decomp.start {before after : List T} {bs be as ae : Nat} {d : List CommonSubsequence} (h : Decomp before after bs be as ae d)
    (hc : Covered d bs as) : Hit before after bs as := by
  induction h with
  | leaf h1 h2 h => obtain ⟨c, hc, -⟩ := hc; cases hc
  | node c hb hl hr ihl ihr =>
    obtain ⟨x, hx, hcov⟩ := hc
    have hbd := hb.bounds
    have h2 := hb.hit
    rcases List.mem_append.1 hx with hx | hx
    · exact ihl ⟨x, hx, hcov⟩
    · rcases List.mem_cons.1 hx with rfl | hx
      · obtain ⟨t, t1, t2, t3⟩ := hcov
        have ht : t = 0 := by omega
        subst ht
        rw [t2, t3]
        exact h2.1
      · have := hr.inside ⟨x, hx, hcov⟩
        have := hb.pos
        omega

/-- A list that ends with a block keeps its last pair. -/
theorem lastReal_of_kept {cs : List Change} {i j ie je : Nat} (ht : Tiles i j cs ie je) (hp : ∀ c ∈ cs, c.Proper)
    (h : ∀ x y, ie = x + 1 → je = y + 1 → ¬ Kept cs x y) : LastReal cs := by
  intro c hc
  cases hcs : c.isNoChange with
  | false => rfl
  | true =>
    exfalso
    have hne : cs ≠ [] := by rintro rfl; cases hc
    have hl : cs.getLast hne = c := by
      rw [List.getLast?_eq_some_getLast hne] at hc
      exact Option.some.inj hc
    have hm : c ∈ cs := hl ▸ List.getLast_mem hne
    rw [← List.dropLast_concat_getLast hne, hl] at ht
    obtain ⟨e1, e2⟩ := ht.snoc
    cases c with
    | noChange g =>
      have h0 : 0 < g.n := hp _ hm
      simp only [Change.old, Change.new] at e1 e2
      exact h (g.b + (g.n - 1)) (g.a + (g.n - 1)) (by omega) (by omega) ⟨g, hm, g.n - 1, by omega, rfl, rfl⟩
    | _ => simp [Change.isNoChange] at hcs

theorem headReal_of_kept {cs : List Change} {i j ie je : Nat} (ht : Tiles i j cs ie je) (hp : ∀ c ∈ cs, c.Proper)
    (h : ¬ Kept cs i j) : HeadReal cs := by
  intro c hc
  cases hcs : c.isNoChange with
  | false => rfl
  | true =>
    exfalso
    cases cs with
    | nil => cases hc
    | cons d cs =>
      obtain rfl := Option.some.inj hc
      cases d with
      | noChange g =>
        have h0 : 0 < g.n := hp (.noChange g) (by simp)
        obtain ⟨e1, e2, -⟩ := ht
        simp only [Change.old, Change.new] at e1 e2
        exact h ⟨g, by simp, 0, h0, by omega, by omega⟩
      | _ => simp [Change.isNoChange] at hcs

theorem Alternating.join {xs ys : List Change} {g : CommonSubsequence} (hx : Alternating xs) (hl : LastReal xs)
    (hy : Alternating ys) (hh : HeadReal ys) : Alternating (xs ++ .noChange g :: ys) := by
  induction xs with
  | nil => exact hy.cons_block hh
  | cons x xs ih =>
    cases xs with
    | nil =>
      refine ⟨?_, hy.cons_block hh⟩
      have := hl x (by simp)
      rw [this]
      simp [Change.isNoChange]
    | cons z xs => exact ⟨hx.1, ih hx.2 (fun c hc => hl c (by simpa using hc))⟩

section

variable {A B C D z : List T}

theorem hit_left : SameRegion A C (A ++ z ++ B) (C ++ z ++ D) 0 A.length 0 C.length 0 0 := by
  intro j i _ hj _ hi
  unfold Hit
  rw [List.append_assoc, List.append_assoc, Nat.add_zero, Nat.add_zero, List.getElem?_append_left hj, List.getElem?_append_left hi]

theorem hit_right : SameRegion B D (A ++ z ++ B) (C ++ z ++ D) 0 B.length 0 D.length (A.length + z.length) (C.length + z.length) := by
  intro j i _ hj _ hi
  unfold Hit
  rw [List.getElem?_append_right (by simp), List.getElem?_append_right (by simp)]
  simp

variable [DecidableEq T] [Item T] [LawfulItem T]

theorem split_changes (p : Profile) (A B C D z : List T) (hz : z ≠ [])
    (honly : ∀ j i, CommonRun (A ++ z ++ B) (C ++ z ++ D) j i z.length → j = A.length ∧ i = C.length)
    (hstep : ¬ Hit B D 1 1) :
    ∃ first second, changesOf p A C = .ok first ∧ changesOf p B D = .ok second ∧
      changesOf p (A ++ z ++ B) (C ++ z ++ D) =
        .ok (first ++ .noChange ⟨A.length, C.length, z.length⟩ :: second.map (Change.shift (A.length + z.length) (C.length + z.length))) ∧ LastReal first ∧ HeadReal second := by
  have hpos : 0 < z.length := List.length_pos_iff.2 hz
  have hzrun : CommonRun (A ++ z ++ B) (C ++ z ++ D) A.length C.length z.length := by
    intro t ht
    refine ⟨z[t], ?_, ?_⟩ <;>
      rw [List.append_assoc, List.getElem?_append_right (by omega), List.getElem?_append_left (by omega)] <;> simp
  have hlast : ∀ x y, A.length = x + 1 → C.length = y + 1 → ¬ Hit (A ++ z ++ B) (C ++ z ++ D) x y := by
    intro x y hx hy hh
    have := honly x y (by
      intro t ht
      cases t with
      | zero => exact hh
      | succ t =>
        have := hzrun t (by omega)
        rwa [hx, hy, Nat.add_right_comm, Nat.add_assoc x, Nat.add_right_comm y, Nat.add_assoc y] at this)
    omega
  have hfirst : ¬ Hit B D 0 0 := by
    intro hh
    have hb : 0 < B.length ∧ 0 < D.length := by
      obtain ⟨x, h1, h2⟩ := hh
      exact ⟨(List.getElem?_eq_some_iff.1 h1).1, (List.getElem?_eq_some_iff.1 h2).1⟩
    have h1 := (hit_right (A := A) (C := C) (z := z) 0 0 (Nat.le_refl _) hb.1 (Nat.le_refl _) hb.2).1 hh
    have := honly (A.length + 1) (C.length + 1) (by
      intro t ht
      by_cases hq : t + 1 = z.length
      · rw [show A.length + 1 + t = 0 + (A.length + z.length) by omega, show C.length + 1 + t = 0 + (C.length + z.length) by omega]
        exact h1
      · have := hzrun (t + 1) (by omega)
        rwa [show A.length + 1 + t = A.length + (t + 1) by omega, show C.length + 1 + t = C.length + (t + 1) by omega])
    omega
  obtain ⟨cs1, -, e1, -⟩ := diffClumps_spec p A C 0
  obtain ⟨cs2, -, e2, -⟩ := diffClumps_spec p B D 0
  obtain ⟨t1, p1, a1, d1, hd1, k1⟩ := (C70_changes p A C cs1).1 e1
  obtain ⟨t2, p2, a2, d2, hd2, k2⟩ := (C70_changes p B D cs2).1 e2
  have m1 := hd1.move (hit_left (A := A) (C := C) (B := B) (D := D) (z := z))
  have m2 := hd2.move (hit_right (A := A) (C := C) (B := B) (D := D) (z := z))
  have hmap : d1.map (CommonSubsequence.shift 0 0) = d1 := by
    rw [show CommonSubsequence.shift 0 0 = id from rfl, List.map_id]
  rw [hmap] at m1
  simp only [Nat.zero_add, Nat.add_zero] at m1 m2
  have hblock : IsBlock (A ++ z ++ B) (C ++ z ++ D) ⟨0, (A ++ z ++ B).length⟩ ⟨0, (C ++ z ++ D).length⟩ ⟨A.length, C.length, z.length⟩ := by
    refine ⟨z.length, 0, ⟨hpos, ⟨Nat.zero_le _, by simp⟩, ⟨Nat.zero_le _, by simp⟩, hzrun, ?_, ?_⟩, ⟨?_, ?_, ?_⟩, rfl⟩
    · intro j i k _ _ _ _ hr
      rcases Nat.lt_or_ge z.length k with hk | hk
      · have q1 := honly j i (fun t ht => hr t (by omega))
        have q2 := honly (j + 1) (i + 1) (fun t ht => by
          have := hr (t + 1) (by omega)
          rwa [show j + 1 + t = j + (t + 1) by omega, show i + 1 + t = i + (t + 1) by omega])
        omega
      · exact hk
    · intro j i _ _ _ _ hr
      have := honly j i hr
      simp only
      omega
    · intro t ht
      omega
    · intro h
      omega
    · intro h1 h2 hh
      simp only [List.length_append] at h1 h2
      apply hstep
      apply (hit_right (A := A) (C := C) (z := z) 1 1 (Nat.zero_le _) (by omega) (Nat.zero_le _) (by omega)).2
      rwa [show 1 + (A.length + z.length) = A.length + z.length + 1 + 0 by omega,
        show 1 + (C.length + z.length) = C.length + z.length + 1 + 0 by omega]
  have hl : LastReal cs1 := by
    refine lastReal_of_kept t1 p1 ?_
    intro x y hx hy hk
    have hcov := (k1 x y).1 hk
    have h3 := hd1.last (by rw [hx, hy]; exact hcov)
    rw [hx, hy] at h3
    exact hlast x y hx hy ((hit_left (A := A) (C := C) (B := B) (D := D) (z := z) x y (Nat.zero_le _) (by omega) (Nat.zero_le _) (by omega)).1 h3)
  have hh : HeadReal cs2 := headReal_of_kept t2 p2 fun hk => hfirst (hd2.start ((k2 0 0).1 hk))
  refine ⟨cs1, cs2, e1, e2, ?_, hl, hh⟩
  refine (C70_changes ..).2 ⟨?_, ?_, ?_, _, .node _ hblock m1 (R := d2.map (CommonSubsequence.shift (A.length + z.length) (C.length + z.length))) ?_, ?_⟩
  · refine t1.append ⟨rfl, rfl, by simp [Change.old], by simp [Change.new], ?_⟩
    have := t2.shift (A.length + z.length) (C.length + z.length)
    simp only [Change.old, Change.new, List.length_append]
    rwa [Nat.zero_add, Nat.zero_add, Nat.add_comm B.length, Nat.add_comm D.length] at this
  · intro c hc
    rcases List.mem_append.1 hc with hc | hc
    · exact p1 c hc
    · rcases List.mem_cons.1 hc with rfl | hc
      · exact hpos
      · obtain ⟨c', hc', rfl⟩ := List.mem_map.1 hc
        exact proper_shift _ _ (p2 c' hc')
  · refine a1.join hl (a2.shift _ _) ?_
    intro c hc
    rw [List.head?_map] at hc
    obtain ⟨c', hc', rfl⟩ := Option.map_eq_some_iff.1 hc
    rw [isNoChange_shift]
    exact hh c' hc'
  · simp only [List.length_append]
    rwa [Nat.add_comm B.length, Nat.add_comm D.length] at m2
  · intro j i
    constructor
    · rintro ⟨c, hc, hcov⟩
      rcases List.mem_append.1 hc with hc | hc
      · obtain ⟨g, hg, hgc⟩ := (k1 j i).1 ⟨c, hc, hcov⟩
        exact ⟨g, List.mem_append_left _ hg, hgc⟩
      · rcases List.mem_cons.1 hc with hc | hc
        · cases hc
          exact ⟨_, List.mem_append_right _ (List.mem_cons_self ..), hcov⟩
        · obtain ⟨j', i', q1, q2, q3⟩ := kept_shift.1 ⟨c, hc, hcov⟩
          obtain ⟨g, hg, hgc⟩ := covered_shift.2 ⟨j', i', q1, q2, (k2 j' i').1 q3⟩
          exact ⟨g, List.mem_append_right _ (List.mem_cons_of_mem _ hg), hgc⟩
    · rintro ⟨c, hc, hcov⟩
      rcases List.mem_append.1 hc with hc | hc
      · obtain ⟨g, hg, hgc⟩ := (k1 j i).2 ⟨c, hc, hcov⟩
        exact ⟨g, List.mem_append_left _ hg, hgc⟩
      · rcases List.mem_cons.1 hc with rfl | hc
        · exact ⟨_, List.mem_append_right _ (List.mem_cons_self ..), hcov⟩
        · obtain ⟨j', i', q1, q2, q3⟩ := covered_shift.1 ⟨c, hc, hcov⟩
          obtain ⟨g, hg, hgc⟩ := kept_shift.2 ⟨j', i', q1, q2, (k2 j' i').2 q3⟩
          exact ⟨g, List.mem_append_right _ (List.mem_cons_of_mem _ hg), hgc⟩

/-- The two files have the passage `z` in common, and no other passage of that length. (Two lines further on, where the search steps over
a line, they do not agree.) Then comparing them amounts to comparing what comes before the passage, and what comes after it: neither
influences what is found on the other side. -/
theorem C128_changes (p : Profile) (A B C D z : List T) (hz : z ≠ [])
    (honly : ∀ j i, CommonRun (A ++ z ++ B) (C ++ z ++ D) j i z.length → j = A.length ∧ i = C.length)
    (hstep : ¬ Hit B D 1 1) :
    ∃ first second, changesOf p A C = .ok first ∧ changesOf p B D = .ok second ∧
      changesOf p (A ++ z ++ B) (C ++ z ++ D) =
        .ok (first ++ .noChange ⟨A.length, C.length, z.length⟩ ::
          second.map (Change.shift (A.length + z.length) (C.length + z.length))) := by
  obtain ⟨first, second, h1, h2, h3, -⟩ := split_changes p A B C D z hz honly hstep
  exact ⟨first, second, h1, h2, h3⟩

omit [DecidableEq T] [Item T] [LawfulItem T] in
/-- What is left out of a change list with a block that separates two parts. -/
theorem leftOut_split {ctx : Nat} {cs1 cs2 : List Change} {g : CommonSubsequence} {X Y j i : Nat}
    (h : LeftOut ctx (cs1 ++ .noChange g :: cs2.map (Change.shift X Y)) j i) :
    LeftOut ctx cs1 j i ∨ g.Covers j i ∨ ∃ j' i', j = j' + X ∧ i = i' + Y ∧ LeftOut ctx cs2 j' i' := by
  obtain ⟨pre, c, post, t, e, ht, hj, hi, h1, h2⟩ := h
  rcases List.append_eq_append_iff.1 e with ⟨as, rfl, e2⟩ | ⟨bs, rfl, e2⟩
  · cases as with
    | nil =>
      simp only [List.nil_append, List.cons.injEq, Change.noChange.injEq] at e2
      obtain ⟨rfl, -⟩ := e2
      exact .inr (.inl ⟨t, ht, hj, hi⟩)
    | cons x as =>
      simp only [List.cons_append, List.cons.injEq] at e2
      obtain ⟨rfl, e2⟩ := e2
      obtain ⟨l1, l2, e3, e4, e5⟩ := List.map_eq_append_iff.1 e2
      obtain ⟨c', l3, rfl, e6, e7⟩ := List.map_eq_cons_iff.1 e5
      cases c' <;> simp only [Change.shift, Change.noChange.injEq, reduceCtorEq] at e6
      rename_i c'
      subst e6
      simp only [CommonSubsequence.shift] at ht hj hi h2
      refine .inr (.inr ⟨c'.b + t, c'.a + t, by omega, by omega, l1, c', l3, t, e3, ht, rfl, rfl, fun _ => h1 (by simp), ?_⟩)
      intro hl3
      apply h2
      rw [← e7]
      simpa using hl3
  · cases bs with
    | nil =>
      simp only [List.nil_append, List.cons.injEq, Change.noChange.injEq] at e2
      obtain ⟨rfl, -⟩ := e2
      exact .inr (.inl ⟨t, ht, hj, hi⟩)
    | cons x bs =>
      simp only [List.cons_append, List.cons.injEq] at e2
      obtain ⟨rfl, rfl⟩ := e2
      exact .inl ⟨pre, c, bs, t, rfl, ht, hj, hi, h1, fun _ => h2 (by simp)⟩

omit [DecidableEq T] [Item T] [LawfulItem T] in
theorem leftOut_first {ctx : Nat} {cs1 cs2 : List Change} {j i : Nat}
    (hl : LastReal cs1) (h : LeftOut ctx cs1 j i) : LeftOut ctx (cs1 ++ cs2) j i := by
  obtain ⟨pre, c, post, t, rfl, ht, hj, hi, h1, h2⟩ := h
  refine ⟨pre, c, post ++ cs2, t, by simp, ht, hj, hi, h1, fun _ => h2 ?_⟩
  rintro rfl
  have := hl (.noChange c) (by simp)
  simp [Change.isNoChange] at this

omit [DecidableEq T] [Item T] [LawfulItem T] in
theorem leftOut_second {ctx : Nat} {cs1 cs2 : List Change} {j i X Y : Nat}
    (hh : HeadReal cs2) (h : LeftOut ctx cs2 j i) : LeftOut ctx (cs1 ++ cs2.map (Change.shift X Y)) (j + X) (i + Y) := by
  obtain ⟨pre, c, post, t, rfl, ht, hj, hi, h1, h2⟩ := h
  have hpre : pre ≠ [] := by
    rintro rfl
    have := hh (.noChange c) (by simp)
    simp [Change.isNoChange] at this
  refine ⟨cs1 ++ pre.map (Change.shift X Y), c.shift X Y, post.map (Change.shift X Y), t, by simp [Change.shift], ht, ?_, ?_,
    fun _ => h1 hpre, fun hp => h2 (by simpa using hp)⟩ <;> simp only [CommonSubsequence.shift] <;> omega

theorem LeftOut.within {p : Profile} {before after : List T} {ctx : Nat} {cs : List Change} (hc : changesOf p before after = .ok cs)
    {j i : Nat} (h : LeftOut ctx cs j i) : j < before.length ∧ i < after.length := by
  obtain ⟨-, -, -, d, hd, hk⟩ := (C70_changes p before after cs).1 hc
  have := hd.inside ((hk j i).1 h.kept)
  exact ⟨this.2.1, this.2.2.2⟩

/-- So it is with patching: what the patch makes of the first file is what the patch for the first parts makes of the first part, the
passage, and what the patch for the second parts makes of the second part. -/
theorem C128_patched (p q : Profile) (A B C D z : List T) (hz : z ≠ [])
    (honly : ∀ j i, CommonRun (A ++ z ++ B) (C ++ z ++ D) j i z.length → j = A.length ∧ i = C.length)
    (hstep : ¬ Hit B D 1 1) (context : Nat) (hctx : context ≤ 255) (hb : (A ++ z ++ B).length ≤ maxLines)
    (ha : (C ++ z ++ D).length ≤ maxLines) (cs cs1 cs2 : List (DiffClump T))
    (h : diffClumps p (A ++ z ++ B) (C ++ z ++ D) context = .ok cs) (h1 : diffClumps p A C context = .ok cs1)
    (h2 : diffClumps p B D context = .ok cs2) :
    (applyInto q cs (A ++ z ++ B) false).run.2 =
      (applyInto q cs1 A false).run.2 ++ bytesOf z ++ (applyInto q cs2 B false).run.2 := by
  obtain ⟨ch1, ch2, e1, e2, e3, hl, hh⟩ := split_changes p A B C D z hz honly hstep
  have hb' := hb
  have ha' := ha
  simp only [List.length_append] at hb' ha'
  obtain ⟨t, r, len, ht⟩ := C97_partial p q _ _ context hctx hb ha _ cs e3 h
  obtain ⟨t1, r1, len1, ht1⟩ := C97_partial p q A C context hctx (by omega) (by omega) _ cs1 e1 h1
  obtain ⟨t2, r2, len2, ht2⟩ := C97_partial p q B D context hctx (by omega) (by omega) _ cs2 e2 h2
  have key : t = t1 ++ z ++ t2 := by
    apply List.ext_getElem?
    intro i
    have elim : ∀ {j}, LeftOut context (ch1 ++ .noChange ⟨A.length, C.length, z.length⟩ ::
        ch2.map (Change.shift (A.length + z.length) (C.length + z.length))) j i →
        (i < C.length ∧ LeftOut context ch1 j i) ∨ (C.length ≤ i ∧ i < C.length + z.length ∧ j + C.length = i + A.length) ∨
        ∃ j' i', j = j' + (A.length + z.length) ∧ i = i' + (C.length + z.length) ∧ LeftOut context ch2 j' i' := by
      intro j hj
      rcases leftOut_split hj with hj | ⟨u, u1, u2, u3⟩ | hj
      · exact .inl ⟨(hj.within e1).2, hj⟩
      · simp only at u1 u2 u3
        exact .inr (.inl ⟨by omega, by omega, by omega⟩)
      · exact .inr (.inr hj)
    rcases Nat.lt_or_ge i C.length with hi | hi
    · rw [List.append_assoc, List.getElem?_append_left (by omega)]
      by_cases hex : ∃ j, LeftOut context ch1 j i
      · obtain ⟨j, hj⟩ := hex
        rw [(ht1 i).1 j hj, (ht i).1 j (leftOut_first hl hj), List.append_assoc, List.getElem?_append_left (hj.within e1).1]
      · rw [(ht1 i).2 fun j hj => hex ⟨j, hj⟩, (ht i).2, List.append_assoc, List.getElem?_append_left hi]
        intro j hj
        rcases elim hj with hj | hj | ⟨j', i', _, hj, _⟩
        · exact hex ⟨j, hj.2⟩
        · omega
        · omega
    · rcases Nat.lt_or_ge i (C.length + z.length) with hi2 | hi2
      · rw [List.append_assoc, List.getElem?_append_right (by omega), List.getElem?_append_left (by omega), len1]
        by_cases hex : ∃ j, LeftOut context (ch1 ++ .noChange ⟨A.length, C.length, z.length⟩ ::
            ch2.map (Change.shift (A.length + z.length) (C.length + z.length))) j i
        · obtain ⟨j, hj⟩ := hex
          rw [(ht i).1 j hj]
          rcases elim hj with hj | hj | ⟨j', i', _, hj, _⟩
          · omega
          · rw [List.append_assoc, List.getElem?_append_right (by omega), List.getElem?_append_left (by omega)]
            congr 1
            omega
          · omega
        · rw [(ht i).2 fun j hj => hex ⟨j, hj⟩, List.append_assoc, List.getElem?_append_right (by omega),
            List.getElem?_append_left (by omega)]
      · obtain ⟨i', rfl⟩ : ∃ i', i = i' + (C.length + z.length) := ⟨i - (C.length + z.length), by omega⟩
        rw [List.getElem?_append_right (by simp; omega)]
        have hsub : i' + (C.length + z.length) - (t1 ++ z).length = i' := by simp; omega
        rw [hsub]
        by_cases hex : ∃ j, LeftOut context ch2 j i'
        · obtain ⟨j, hj⟩ := hex
          have := leftOut_second (X := A.length + z.length) (Y := C.length + z.length)
            (cs1 := ch1 ++ [.noChange ⟨A.length, C.length, z.length⟩]) hh hj
          rw [List.append_assoc] at this
          rw [(ht2 i').1 j hj, (ht _).1 _ this, List.getElem?_append_right (by simp)]
          congr 1
          simp
        · rw [(ht2 i').2 fun j hj => hex ⟨j, hj⟩, (ht _).2, List.getElem?_append_right (by simp)]
          · congr 1
            simp
          · intro j hj
            rcases elim hj with hj | hj | ⟨j', i'', _, e4, hj⟩
            · omega
            · omega
            · obtain rfl : i' = i'' := by omega
              exact hex ⟨j', hj⟩
  rw [r, r1, r2, key]
  simp [bytesOf]

omit [DecidableEq T] [Item T] [LawfulItem T] in
theorem separates_shift (ctx : Nat) (c : Change) (x y : Nat) : separates ctx (c.shift x y) = separates ctx c := by
  cases c <;> rfl

omit [DecidableEq T] [Item T] [LawfulItem T] in
theorem separates_real {ctx : Nat} {c : Change} (h : c.isNoChange = false) : separates ctx c = false := by
  cases c <;> first | rfl | simp [Change.isNoChange] at h

omit [DecidableEq T] [Item T] [LawfulItem T] in
theorem reals_ne {cs : List Change} (h : HeadReal cs ∨ LastReal cs) (hne : cs ≠ []) : reals cs ≠ [] := by
  have : ∃ c ∈ cs, c.isNoChange = false := by
    rcases h with h | h
    · exact ⟨_, List.head_mem hne, h _ (by rw [List.head?_eq_some_head hne]; rfl)⟩
    · exact ⟨_, List.getLast_mem hne, h _ (by rw [List.getLast?_eq_some_getLast hne]; rfl)⟩
  obtain ⟨c, h1, h2⟩ := this
  exact List.ne_nil_of_mem (List.mem_filter.2 ⟨h1, by simp [h2]⟩)

omit [DecidableEq T] [Item T] [LawfulItem T] in
theorem countP_dropLast {ctx : Nat} {cs : List Change} (h : LastReal cs) : cs.dropLast.countP (separates ctx) = cs.countP (separates ctx) := by
  by_cases hne : cs = []
  · subst hne; rfl
  · have := h (cs.getLast hne) (by rw [List.getLast?_eq_some_getLast hne]; rfl)
    rw [← List.dropLast_concat_getLast hne, List.dropLast_concat, List.countP_append]
    simp [separates_real this]

omit [DecidableEq T] [Item T] [LawfulItem T] in
theorem countP_tail {ctx : Nat} {cs : List Change} (h : HeadReal cs) : cs.tail.dropLast.countP (separates ctx) = cs.dropLast.countP (separates ctx) := by
  cases cs with
  | nil => rfl
  | cons c cs =>
    cases cs with
    | nil => rfl
    | cons d cs =>
      simp [separates_real (h c (by simp))]

omit [DecidableEq T] [Item T] [LawfulItem T] in
theorem clumpCount_of {ctx : Nat} {cs : List Change} (h : reals cs ≠ []) :
    clumpCount ctx cs = 1 + cs.tail.dropLast.countP (separates ctx) := by
  unfold clumpCount
  rw [if_neg (by simpa using h)]

/-- The clumps: there are those of the first parts and those of the second parts; if the passage is too short to separate clumps, the
last one of the first parts and the first one of the second parts are one. -/
theorem C128_clumps (p : Profile) (A B C D z : List T) (hz : z ≠ [])
    (honly : ∀ j i, CommonRun (A ++ z ++ B) (C ++ z ++ D) j i z.length → j = A.length ∧ i = C.length)
    (hstep : ¬ Hit B D 1 1) (context : Nat) (cs cs1 cs2 : List (DiffClump T))
    (h : diffClumps p (A ++ z ++ B) (C ++ z ++ D) context = .ok cs) (h1 : diffClumps p A C context = .ok cs1)
    (h2 : diffClumps p B D context = .ok cs2) :
    cs.length + (if z.length < 2 * context ∧ cs1 ≠ [] ∧ cs2 ≠ [] then 1 else 0) = cs1.length + cs2.length := by
  obtain ⟨ch1, ch2, e1, e2, e3, hl, hh⟩ := split_changes p A B C D z hz honly hstep
  have c0 := C99_count p _ _ context _ cs e3 h
  have c1 := C99_count p _ _ context _ cs1 e1 h1
  have c2 := C99_count p _ _ context _ cs2 e2 h2
  have n1 : cs1 = [] ↔ ch1 = [] := by
    rw [← List.length_eq_zero_iff, c1]
    constructor
    · intro h
      by_cases hne : ch1 = []
      · exact hne
      · rw [clumpCount_of (reals_ne (.inr hl) hne)] at h
        omega
    · rintro rfl
      rfl
  have n2 : cs2 = [] ↔ ch2 = [] := by
    rw [← List.length_eq_zero_iff, c2]
    constructor
    · intro h
      by_cases hne : ch2 = []
      · exact hne
      · rw [clumpCount_of (reals_ne (.inl hh) hne)] at h
        omega
    · rintro rfl
      rfl
  have hmap : ∀ l : List Change, (l.map (Change.shift (A.length + z.length) (C.length + z.length))).countP (separates context) =
      l.countP (separates context) := by
    intro l
    rw [List.countP_map]
    congr 1
    funext c
    exact separates_shift ..
  rw [c0, c1, c2]
  simp only [ne_eq, n1, n2]
  by_cases q1 : ch1 = []
  · subst q1
    by_cases q2 : ch2 = []
    · subst q2
      simp [clumpCount, reals, Change.isNoChange]
    · have r2 := reals_ne (.inl hh) q2
      have r0 : reals ([] ++ .noChange ⟨A.length, C.length, z.length⟩ :: ch2.map (Change.shift (A.length + z.length) (C.length + z.length))) ≠ [] := by
        obtain ⟨c, hc⟩ := List.exists_mem_of_ne_nil _ r2
        have hc := List.mem_filter.1 hc
        exact List.ne_nil_of_mem (List.mem_filter.2 ⟨List.mem_append_right _ (List.mem_cons_of_mem _ (List.mem_map_of_mem hc.1)), by
          rw [isNoChange_shift]; exact hc.2⟩)
      rw [clumpCount_of r2, clumpCount_of r0]
      simp only [List.nil_append, List.tail_cons, not_true_eq_false, false_and, and_false, if_false]
      rw [countP_tail hh, ← List.map_dropLast, hmap]
      simp [clumpCount, reals]
  · have r1 := reals_ne (.inr hl) q1
    obtain ⟨x, xs, rfl⟩ := List.exists_cons_of_ne_nil q1
    have r0 : reals (x :: xs ++ .noChange ⟨A.length, C.length, z.length⟩ :: ch2.map (Change.shift (A.length + z.length) (C.length + z.length))) ≠ [] := by
      obtain ⟨c, hc⟩ := List.exists_mem_of_ne_nil _ r1
      have hc := List.mem_filter.1 hc
      exact List.ne_nil_of_mem (List.mem_filter.2 ⟨List.mem_append_left _ hc.1, hc.2⟩)
    have hxs : LastReal xs := by
      intro c hc
      refine hl c ?_
      cases xs with
      | nil => cases hc
      | cons y ys => simpa using hc
    rw [clumpCount_of r0, clumpCount_of r1]
    simp only [List.cons_append, List.tail_cons]
    rw [countP_dropLast hxs]
    by_cases q2 : ch2 = []
    · subst q2
      simp [clumpCount, reals]
    · have r2 := reals_ne (.inl hh) q2
      rw [clumpCount_of r2, countP_tail hh]
      rw [List.dropLast_append_of_ne_nil (by simp), List.countP_append, List.dropLast_cons_of_ne_nil (by simpa using q2),
        List.countP_cons, ← List.map_dropLast, hmap]
      simp only [separates]
      by_cases hzc : z.length < 2 * context
      · have : ¬ 2 * context ≤ z.length := by omega
        simp [hzc, q2, this]
        omega
      · have : 2 * context ≤ z.length := by omega
        simp [this, hzc]
        omega

/-- So what is found before the passage does not depend on what comes after it, and the other way round. -/
theorem C128_local (p : Profile) (A B C D B' D' z : List T) (hz : z ≠ [])
    (honly : ∀ j i, CommonRun (A ++ z ++ B) (C ++ z ++ D) j i z.length → j = A.length ∧ i = C.length) (hstep : ¬ Hit B D 1 1)
    (honly' : ∀ j i, CommonRun (A ++ z ++ B') (C ++ z ++ D') j i z.length → j = A.length ∧ i = C.length) (hstep' : ¬ Hit B' D' 1 1) :
    ∃ first rest rest', changesOf p (A ++ z ++ B) (C ++ z ++ D) = .ok (first ++ .noChange ⟨A.length, C.length, z.length⟩ :: rest) ∧
      changesOf p (A ++ z ++ B') (C ++ z ++ D') = .ok (first ++ .noChange ⟨A.length, C.length, z.length⟩ :: rest') := by
  obtain ⟨first, second, h1, -, h3⟩ := C128_changes p A B C D z hz honly hstep
  obtain ⟨first', second', h1', -, h3'⟩ := C128_changes p A B' C D' z hz honly' hstep'
  obtain rfl := Outcome.ok_inj (h1.symm.trans h1')
  exact ⟨first, _, _, h3, h3'⟩

omit [Item T] [LawfulItem T] in
/-- Checking the condition on concrete inputs. -/
theorem only_of_check {before after : List T} {n b a : Nat} (hn : 0 < n)
    (h : ((List.range before.length).all fun j => (List.range after.length).all fun i =>
      !((List.range n).all fun t => hitB before after (j + t) (i + t)) || (j == b && i == a)) = true) :
    ∀ j i, CommonRun before after j i n → j = b ∧ i = a := by
  intro j i hr
  obtain ⟨x, hx, hy⟩ := hr 0 hn
  have h1 := List.all_eq_true.1 (List.all_eq_true.1 h j (List.mem_range.2 (List.getElem?_eq_some_iff.1 hx).1)) i
    (List.mem_range.2 (List.getElem?_eq_some_iff.1 hy).1)
  have h2 : ((List.range n).all fun t => hitB before after (j + t) (i + t)) = true :=
    List.all_eq_true.2 fun t ht => (hitB_iff _ _ _ _).2 (hr t (List.mem_range.1 ht))
  rw [h2] at h1
  simpa using h1

end

/-- What one may expect: any common passage separates the two parts. -/
def C128_statement : Prop :=
  ∀ (p : Profile) (A B C D z : List UInt8), z ≠ [] →
    ∃ first second, changesOf p A C = .ok first ∧ changesOf p B D = .ok second ∧
      changesOf p (A ++ z ++ B) (C ++ z ++ D) =
        .ok (first ++ .noChange ⟨A.length, C.length, z.length⟩ :: second.map (Change.shift (A.length + z.length) (C.length + z.length)))

/-- It fails if there is a longer common passage, which is then taken. -/
theorem C128_refuted : ¬ C128_statement := by
  intro h
  obtain ⟨first, second, h1, h2, h3⟩ := h .debug [1, 2] [] [] [1, 2] [7] (by decide)
  have e1 : changesOf .debug ([1, 2] : List UInt8) [] = .ok [.delete ⟨0, 2⟩ 0] := by decide +kernel
  have e2 : changesOf .debug ([] : List UInt8) [1, 2] = .ok [.insert 0 ⟨0, 2⟩] := by decide +kernel
  have e3 : changesOf .debug ([1, 2] ++ [7] ++ [] : List UInt8) ([] ++ [7] ++ [1, 2]) =
      .ok [.insert 0 ⟨0, 1⟩, .noChange ⟨0, 1, 2⟩, .delete ⟨2, 3⟩ 3] := by decide +kernel
  obtain rfl := Outcome.ok_inj (e1.symm.trans h1)
  obtain rfl := Outcome.ok_inj (e2.symm.trans h2)
  have := Outcome.ok_inj (e3.symm.trans h3)
  exact absurd this (by decide)

/-- Nor can the other condition be dropped: here the passage `1 2` is the only one of its length, but the search steps over the line that
follows it, and the replacement of 5 by 7 is lost, which is found when the parts are compared. -/
theorem C128_step_needed :
    (∀ j i, CommonRun ([9] ++ [1, 2] ++ [5, 6] : List UInt8) ([8] ++ [1, 2] ++ [7, 6]) j i 2 → j = 1 ∧ i = 1) ∧
    changesOf .debug ([9] ++ [1, 2] ++ [5, 6] : List UInt8) ([8] ++ [1, 2] ++ [7, 6]) = .ok [.replace ⟨0, 1⟩ ⟨0, 1⟩, .noChange ⟨1, 1, 4⟩] ∧
    changesOf .debug ([5, 6] : List UInt8) [7, 6] = .ok [.replace ⟨0, 1⟩ ⟨0, 1⟩, .noChange ⟨1, 1, 1⟩] :=
  ⟨only_of_check (by decide) (by decide +kernel), by decide +kernel, by decide +kernel⟩

/-- The conditions are met by files with a passage of three lines in common, and repeated lines on both sides of it. -/
example := C128_changes .debug ([4, 4, 5] : List UInt8) [4, 6] [5, 4] [6, 5, 4] [1, 2, 3] (by decide)
  (only_of_check (by decide) (by decide +kernel)) (by rw [← hitB_iff]; decide)
example : changesOf .debug ([4, 4, 5, 1, 2, 3, 4, 6] : List UInt8) [5, 4, 1, 2, 3, 6, 5, 4] =
    .ok [.delete ⟨0, 2⟩ 0, .noChange ⟨2, 0, 1⟩, .insert 3 ⟨1, 2⟩, .noChange ⟨3, 2, 3⟩, .delete ⟨6, 7⟩ 5, .noChange ⟨7, 5, 1⟩,
      .insert 8 ⟨6, 8⟩] := by decide +kernel
example := C128_local .debug ([4, 4, 5] : List UInt8) [4, 6] [5, 4] [6, 5, 4] [] [8, 9] [1, 2, 3] (by decide)
  (only_of_check (by decide) (by decide +kernel)) (by rw [← hitB_iff]; decide)
  (only_of_check (by decide) (by decide +kernel)) (by rw [← hitB_iff]; decide)
/-- With one line of context there is a clump on either side of the passage. -/
example (cs cs1 cs2 : List (DiffClump Str))
    (h : diffClumps .debug ([ln 'd'] ++ [ln 'a', ln 'b', ln 'c'] ++ [ln 'e']) ([] ++ [ln 'a', ln 'b', ln 'c'] ++ [ln 'f', ln 'g']) 1 = .ok cs)
    (h1 : diffClumps .debug [ln 'd'] [] 1 = .ok cs1) (h2 : diffClumps .debug [ln 'e'] [ln 'f', ln 'g'] 1 = .ok cs2) :
    (applyInto .debug cs ([ln 'd'] ++ [ln 'a', ln 'b', ln 'c'] ++ [ln 'e']) false).run.2 =
      (applyInto .debug cs1 [ln 'd'] false).run.2 ++ bytesOf [ln 'a', ln 'b', ln 'c'] ++ (applyInto .debug cs2 [ln 'e'] false).run.2 ∧
    cs.length + 0 = cs1.length + cs2.length := by
  have only := only_of_check (n := 3) (b := 1) (a := 0) (before := [ln 'd'] ++ [ln 'a', ln 'b', ln 'c'] ++ [ln 'e'])
    (after := [] ++ [ln 'a', ln 'b', ln 'c'] ++ [ln 'f', ln 'g']) (by decide) (by decide +kernel)
  exact ⟨C128_patched .debug .debug [ln 'd'] [ln 'e'] [] [ln 'f', ln 'g'] [ln 'a', ln 'b', ln 'c'] (by decide) only
      (by rw [← hitB_iff]; decide) 1 (by decide) (by decide) (by decide) cs cs1 cs2 h h1 h2,
    C128_clumps .debug [ln 'd'] [ln 'e'] [] [ln 'f', ln 'g'] [ln 'a', ln 'b', ln 'c'] (by decide) only
      (by rw [← hitB_iff]; decide) 1 cs cs1 cs2 h h1 h2⟩

end PwDiff
