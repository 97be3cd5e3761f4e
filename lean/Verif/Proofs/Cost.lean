import Verif.Model.Cost
import Verif.Proofs.Changes

/-! # The work of the search for common blocks -/

namespace PwDiff

variable {T : Type}

/-- The indices the inner loop looks at: those before the end of the range and the first other one. -/
def innerCost (fin : Nat) : List Nat → Nat
  | [] => 0
  | j :: js => if j ≥ fin then 1 else innerCost fin js + 1

theorem innerCost_le (fin : Nat) (js : List Nat) : innerCost fin js ≤ js.length := by
  induction js with
  | nil => simp [innerCost]
  | cons j js ih =>
    rw [innerCost, List.length_cons]
    split <;> omega

theorem innerCost_all {fin : Nat} {js : List Nat} (h : ∀ j ∈ js, j < fin) : innerCost fin js = js.length := by
  induction js with
  | nil => rfl
  | cons j js ih =>
    rw [innerCost, if_neg (by have := h j (by simp); omega), ih (fun x hx => h x (by simp [hx])), List.length_cons]

theorem lcsInnerC_eq (p : Profile) (br : Range) (hbr : br.start ≤ br.fin) (index : Nat) (m : JMap) (js : List Nat)
    (m' : JMap) (best : CommonSubsequence) (n : Nat) :
    lcsInnerC p br index m js m' best n =
      (lcsInner p br index m js m' best).bind (fun a => .ok (a, n + innerCost br.fin js)) := by
  induction js generalizing m' best n with
  | nil => rfl
  | cons j js ih =>
    rw [lcsInnerC, lcsInner, innerCost]
    by_cases h1 : j < br.start
    · rw [if_pos h1, if_pos h1, if_neg (by omega), ih]
      congr 1; funext a; rw [show n + 1 + innerCost br.fin js = n + (innerCost br.fin js + 1) by omega]
    · rw [if_neg h1, if_neg h1]
      by_cases h2 : j ≥ br.fin
      · rw [if_pos h2, if_pos h2, if_pos h2]; rfl
      · rw [if_neg h2, if_neg h2, if_neg h2]
        dsimp only
        have e : n + 1 + innerCost br.fin js = n + (innerCost br.fin js + 1) := by omega
        split
        · cases usub p (j + 1) (kOf m j) with
          | ok b =>
            simp only [Outcome.ok_bind]
            cases usub p (index + 1) (kOf m j) with
            | ok a => simp only [Outcome.ok_bind]; rw [ih, e]
            | _ => rfl
          | _ => rfl
        · rw [ih, e]

/-- The steps of the loop over the items. -/
def outerCost (indices : Indices T) (fin : Nat) : List T → Nat
  | [] => 0
  | x :: xs => 1 + (match indices x with | some js => innerCost fin js | none => 0) + outerCost indices fin xs

theorem lcsOuterC_eq (p : Profile) (indices : Indices T) (br : Range) (hbr : br.start ≤ br.fin) (items : List T)
    (index : Nat) (m : JMap) (best : CommonSubsequence) (n : Nat) :
    lcsOuterC p indices br items index m best n =
      (lcsOuter p indices br items index m best).bind (fun a => .ok (a, n + outerCost indices br.fin items)) := by
  induction items generalizing index m best n with
  | nil => rfl
  | cons x xs ih =>
    rw [lcsOuterC, lcsOuter, outerCost]
    cases indices x with
    | none =>
      dsimp only
      rw [ih]
      congr 1; funext a; congr 2; omega
    | some js =>
      dsimp only
      rw [lcsInnerC_eq p br hbr]
      cases lcsInner p br index m js (fun _ => none) best with
      | ok r =>
        obtain ⟨r1, r2⟩ := r
        show lcsOuterC p indices br xs (index + 1) r1 r2 (n + 1 + innerCost br.fin js) = _
        rw [ih]
        show _ = (lcsOuter p indices br xs (index + 1) r1 r2).bind _
        congr 1; funext a; congr 2; omega
      | _ => rfl

theorem comparisons_le [DecidableEq T] (xs ys : List T) : comparisons xs ys ≤ ys.length := by
  induction xs generalizing ys with
  | nil => simp [comparisons]
  | cons x xs ih =>
    cases ys with
    | nil => simp [comparisons]
    | cons y ys =>
      rw [comparisons, List.length_cons]
      have := ih ys
      split <;> omega

theorem subsequence_le {l r : List T} {range : Range} (h : subsequence l range = .ok r) : r.length ≤ l.length := by
  unfold subsequence slice at h
  split at h
  · rename_i h'
    injection h with h
    rw [← h, List.length_take, List.length_drop]
    omega
  · cases h

/-- The search counts the steps of the loop over the items and at most two comparisons for each item. -/
theorem lcsC_eq [DecidableEq T] (p : Profile) (before after : List T) (indices : Indices T) (br ar : Range)
    (hbr : br.start ≤ br.fin) (har : ar.Inside after) (n : Nat) :
    ∃ c, longestCommonSubsequenceC p before after indices br ar n =
        (longestCommonSubsequence p before after indices br ar).bind (fun a => .ok (a, n + c)) ∧
      outerCost indices br.fin (cut after ar.start ar.fin) ≤ c ∧
      c ≤ outerCost indices br.fin (cut after ar.start ar.fin) + 2 * after.length := by
  unfold longestCommonSubsequenceC longestCommonSubsequence
  rw [subsequence_ok har.1 har.2]
  simp only [Outcome.ok_bind]
  rw [lcsOuterC_eq p indices br hbr]
  generalize outerCost indices br.fin (cut after ar.start ar.fin) = k
  cases lcsOuter p indices br (cut after ar.start ar.fin) ar.start (fun _ => none) CommonSubsequence.default with
  | ok best =>
    show ∃ c, (if best.isEmpty then _ else _) = Outcome.bind (if best.isEmpty then _ else _) _ ∧ _
    by_cases he : best.isEmpty
    · rw [if_pos he, if_pos he]
      exact ⟨k, rfl, Nat.le_refl _, by omega⟩
    · rw [if_neg he, if_neg he]
      cases subsequence before ⟨br.start, best.beforeStart⟩ with
      | ok xs =>
        simp only [Outcome.ok_bind]
        cases hys : subsequence after ⟨ar.start, best.afterStart⟩ with
        | ok ys =>
          simp only [Outcome.ok_bind]
          have h1 := comparisons_le xs.reverse ys.reverse
          have h2 := subsequence_le hys
          rw [List.length_reverse] at h1
          cases best.incrSizeMovingStarts p (min (min (matchCount xs.reverse ys.reverse) best.beforeStart) best.afterStart) with
          | ok best =>
            simp only [Outcome.ok_bind]
            by_cases hc : best.beforeEnd + 1 < br.fin ∧ best.afterEnd + 1 < ar.fin
            · rw [if_pos hc, if_pos hc]
              cases subsequence before ⟨best.beforeEnd + 1, br.fin⟩ with
              | ok xs' =>
                simp only [Outcome.ok_bind]
                cases hys' : subsequence after ⟨best.afterEnd + 1, ar.fin⟩ with
                | ok ys' =>
                  simp only [Outcome.ok_bind]
                  have h3 := comparisons_le xs' ys'
                  have h4 := subsequence_le hys'
                  refine ⟨k + comparisons xs.reverse ys.reverse + comparisons xs' ys', ?_, by omega, by omega⟩
                  rw [show n + (k + comparisons xs.reverse ys.reverse + comparisons xs' ys') =
                    n + k + comparisons xs.reverse ys.reverse + comparisons xs' ys' by omega]
                  rfl
                | _ => exact ⟨k, rfl, Nat.le_refl _, by omega⟩
              | _ => exact ⟨k, rfl, Nat.le_refl _, by omega⟩
            · rw [if_neg hc, if_neg hc]
              refine ⟨k + comparisons xs.reverse ys.reverse, ?_, by omega, by omega⟩
              rw [show n + (k + comparisons xs.reverse ys.reverse) = n + k + comparisons xs.reverse ys.reverse by omega]
              rfl
          | _ => exact ⟨k, rfl, Nat.le_refl _, by omega⟩
        | _ => exact ⟨k, rfl, Nat.le_refl _, by omega⟩
      | _ => exact ⟨k, rfl, Nat.le_refl _, by omega⟩
  | _ => exact ⟨k, rfl, Nat.le_refl _, by omega⟩

/-- The same measure as `lifoMeasure`, on the side of the after sequence. -/
def lifoMeasureA : List (Range × Range) → Nat
  | [] => 0
  | (_, ar) :: lifo => 2 * (ar.fin - ar.start) + 1 + lifoMeasureA lifo

theorem outerCost_le {before : List T} [DecidableEq T] {indices : Indices T} {r : Nat}
    (hi : ∀ x, indices x = if x ∈ before then some (positions before x) else none)
    (hr : ∀ x, (positions before x).length ≤ r) (fin : Nat) (items : List T) :
    outerCost indices fin items ≤ items.length * (r + 1) := by
  induction items with
  | nil => simp [outerCost]
  | cons x xs ih =>
    rw [outerCost, List.length_cons, Nat.succ_mul]
    have : (match indices x with | some js => innerCost fin js | none => 0) ≤ r := by
      rw [hi]
      split
      · rename_i js hjs
        split at hjs
        · injection hjs with hjs
          have := innerCost_le fin js
          have := hr x
          rw [hjs] at this
          omega
        · cases hjs
      · omega
    omega

theorem lcsesLoopC_eq [DecidableEq T] (p : Profile) (before after : List T) (indices : Indices T)
    (hi : ∀ x, indices x = if x ∈ before then some (positions before x) else none) {r : Nat}
    (hr : ∀ x, (positions before x).length ≤ r)
    (fuel : Nat) (lifo : List (Range × Range)) (raw : List CommonSubsequence) (n : Nat)
    (hin : LifoInside before after lifo) :
    ∃ c, lcsesLoopC p before after indices fuel lifo raw n =
        (lcsesLoop p before after indices fuel lifo raw).bind (fun a => .ok (a, n + c)) ∧
      (lcsesLoop p before after indices fuel lifo raw ≠ .diverge → 
        c ≤ min (lifoMeasure lifo) (lifoMeasureA lifo) * (after.length * (r + 3) + 1)) := by
  induction fuel generalizing lifo raw n with
  | zero =>
    cases lifo with
    | nil => exact ⟨0, rfl, by simp⟩
    | cons x lifo => exact ⟨0, rfl, fun h => absurd rfl h⟩
  | succ fuel ih =>
    cases lifo with
    | nil => exact ⟨0, by rw [lcsesLoopC, lcsesLoop]; rfl, by simp⟩
    | cons x lifo =>
      obtain ⟨br, ar⟩ := x
      obtain ⟨hbr, har⟩ := hin (br, ar) (by simp)
      simp only at hbr har
      have hin' : LifoInside before after lifo := fun r hr => hin r (by simp [hr])
      rw [lcsesLoopC, lcsesLoop]
      obtain ⟨c1, g1, -, g2⟩ := lcsC_eq p before after indices br ar hbr.1 har (n + 1)
      obtain ⟨res, e1, -, e3⟩ := lcs_block p indices hi hbr har
      rw [g1, e1]
      have hc1 : c1 + 1 ≤ after.length * (r + 3) + 1 := by
        have h1 := outerCost_le hi hr br.fin (cut after ar.start ar.fin)
        have h2 : (cut after ar.start ar.fin).length ≤ after.length := by
          rw [cut, List.length_take, List.length_drop]; omega
        have h3 := Nat.mul_le_mul_right (r + 1) h2
        have h4 : after.length * (r + 3) = after.length * (r + 1) + 2 * after.length := by
          rw [show r + 3 = r + 1 + 2 by omega, Nat.mul_add, Nat.mul_comm 2]
        omega
      generalize after.length * (r + 3) + 1 = M at hc1 ih ⊢
      have fin : ∀ (m m' c : Nat), m' + 1 ≤ m → c ≤ m' * M → c1 + 1 + c ≤ m * M := by
        intro m m' c h1 h2
        have := Nat.mul_le_mul_right M h1
        rw [Nat.succ_mul] at this
        omega
      have go : ∀ lifo' raw', LifoInside before after lifo' → lifoMeasure lifo' + 1 ≤ lifoMeasure ((br, ar) :: lifo) →
          lifoMeasureA lifo' + 1 ≤ lifoMeasureA ((br, ar) :: lifo) →
          ∃ c, lcsesLoopC p before after indices fuel lifo' raw' (n + 1 + c1) =
            (lcsesLoop p before after indices fuel lifo' raw').bind (fun a => .ok (a, n + c)) ∧
            (lcsesLoop p before after indices fuel lifo' raw' ≠ .diverge →
              c ≤ min (lifoMeasure ((br, ar) :: lifo)) (lifoMeasureA ((br, ar) :: lifo)) * M) := by
        intro lifo' raw' h1 h2 h3
        obtain ⟨c, f1, f2⟩ := ih lifo' raw' (n + 1 + c1) h1
        refine ⟨c1 + 1 + c, ?_, fun h => fin _ _ c (by omega) (f2 h)⟩
        rw [f1, show n + 1 + c1 + c = n + (c1 + 1 + c) by omega]
      cases res with
      | none =>
        exact go lifo raw hin' (by simp only [lifoMeasure]; omega) (by simp only [lifoMeasureA]; omega)
      | some c =>
        obtain ⟨hblock, hb2, ha2⟩ := e3 c rfl
        have hn : 1 ≤ c.n := hblock.pos
        obtain ⟨hb1, ha1⟩ : br.start ≤ c.b ∧ ar.start ≤ c.a := by
          obtain ⟨_, _, h, -⟩ := hblock
          exact ⟨h.inOld.1, h.inNew.1⟩
        have inL : (⟨br.start, c.b⟩ : Range).Inside before ∧ (⟨ar.start, c.a⟩ : Range).Inside after :=
          ⟨⟨hb1, by have := hbr.2; simp; omega⟩, ⟨ha1, by have := har.2; simp; omega⟩⟩
        have inR : (⟨c.b + c.n, br.fin⟩ : Range).Inside before ∧ (⟨c.a + c.n, ar.fin⟩ : Range).Inside after :=
          ⟨⟨hb2, hbr.2⟩, ⟨ha2, har.2⟩⟩
        have consInside : ∀ (r : Range × Range) (l : List (Range × Range)), r.1.Inside before ∧ r.2.Inside after →
            LifoInside before after l → LifoInside before after (r :: l) := by
          intro r l h1 h2 x hx
          rcases List.mem_cons.1 hx with rfl | hx
          · exact h1
          · exact h2 x hx
        show ∃ k, lcsesLoopC p before after indices fuel
            (if c.b + c.n < br.fin ∧ c.a + c.n < ar.fin then
              (⟨c.b + c.n, br.fin⟩, ⟨c.a + c.n, ar.fin⟩) ::
                (if br.start < c.b ∧ ar.start < c.a then (⟨br.start, c.b⟩, ⟨ar.start, c.a⟩) :: lifo else lifo)
            else (if br.start < c.b ∧ ar.start < c.a then (⟨br.start, c.b⟩, ⟨ar.start, c.a⟩) :: lifo else lifo))
            (raw ++ [c]) (n + 1 + c1) =
          (lcsesLoop p before after indices fuel
            (if c.b + c.n < br.fin ∧ c.a + c.n < ar.fin then
              (⟨c.b + c.n, br.fin⟩, ⟨c.a + c.n, ar.fin⟩) ::
                (if br.start < c.b ∧ ar.start < c.a then (⟨br.start, c.b⟩, ⟨ar.start, c.a⟩) :: lifo else lifo)
            else (if br.start < c.b ∧ ar.start < c.a then (⟨br.start, c.b⟩, ⟨ar.start, c.a⟩) :: lifo else lifo))
            (raw ++ [c])).bind (fun a => .ok (a, n + k)) ∧
          (lcsesLoop p before after indices fuel
            (if c.b + c.n < br.fin ∧ c.a + c.n < ar.fin then
              (⟨c.b + c.n, br.fin⟩, ⟨c.a + c.n, ar.fin⟩) ::
                (if br.start < c.b ∧ ar.start < c.a then (⟨br.start, c.b⟩, ⟨ar.start, c.a⟩) :: lifo else lifo)
            else (if br.start < c.b ∧ ar.start < c.a then (⟨br.start, c.b⟩, ⟨ar.start, c.a⟩) :: lifo else lifo))
            (raw ++ [c]) ≠ .diverge → _)
        split <;> split
        · exact go _ _ (consInside _ _ inR (consInside _ _ inL hin')) (by simp only [lifoMeasure]; omega)
            (by simp only [lifoMeasureA]; omega)
        · exact go _ _ (consInside _ _ inR hin') (by simp only [lifoMeasure]; omega) (by simp only [lifoMeasureA]; omega)
        · exact go _ _ (consInside _ _ inL hin') (by simp only [lifoMeasure]; omega) (by simp only [lifoMeasureA]; omega)
        · exact go _ _ hin' (by simp only [lifoMeasure]; omega) (by simp only [lifoMeasureA]; omega)

/-- The count of `changesOfC` beside the result of `changesOf`. -/
theorem changesOfC_eq [DecidableEq T] [Item T] [LawfulItem T] (p : Profile) (before after : List T) :
    ∃ ch n, changesOf p before after = .ok ch ∧ changesOfC p before after = .ok (ch, n) ∧
      ∀ r, (∀ x, (positions before x).length ≤ r) →
        n ≤ (2 * min before.length after.length + 1) * (after.length * (r + 3) + 1) := by
  have hi := LawfulItem.generateFrom_eq before
  have hin : LifoInside before after [(rangeFrom before 0, rangeFrom after 0)] := by
    intro r hr
    rw [List.mem_singleton] at hr
    subst hr
    exact ⟨⟨Nat.zero_le _, Nat.le_refl _⟩, ⟨Nat.zero_le _, Nat.le_refl _⟩⟩
  obtain ⟨raw, d, e1, -, -⟩ := lcsesLoop_ok p before after (Item.generateFrom before) hi (lcsesFuel before)
    [(rangeFrom before 0, rangeFrom after 0)] [] (by simp [lifoMeasure, rangeFrom, lcsesFuel]) hin
  have key : ∀ r, (∀ x, (positions before x).length ≤ r) → ∃ c,
      lcsesLoopC p before after (Item.generateFrom before) (lcsesFuel before) [(rangeFrom before 0, rangeFrom after 0)] [] 0 =
        .ok (raw, c) ∧ c ≤ (2 * min before.length after.length + 1) * (after.length * (r + 3) + 1) := by
    intro r hr
    obtain ⟨c, g1, g2⟩ := lcsesLoopC_eq p before after (Item.generateFrom before) hi hr (lcsesFuel before)
      [(rangeFrom before 0, rangeFrom after 0)] [] 0 hin
    rw [e1] at g1 g2
    refine ⟨c, by rw [g1, Nat.zero_add]; rfl, ?_⟩
    have := g2 (by simp)
    have hm : min (lifoMeasure [(rangeFrom before 0, rangeFrom after 0)]) (lifoMeasureA [(rangeFrom before 0, rangeFrom after 0)]) =
        2 * min before.length after.length + 1 := by
      simp only [lifoMeasure, lifoMeasureA, rangeFrom]; omega
    rwa [hm] at this
  obtain ⟨c, h1, -⟩ := key before.length (fun x => by
    unfold positions
    exact Nat.le_trans (List.length_filter_le _ _) (by rw [List.length_range]; exact Nat.le_refl _))
  refine ⟨_, c, by unfold changesOf generateWith longestCommonSubsequencesWith; rw [e1]; rfl, by unfold changesOfC; rw [h1]; rfl, ?_⟩
  intro r hr
  obtain ⟨c', h2, h3⟩ := key r hr
  rw [h1] at h2
  injection h2 with h2
  injection h2 with _ h2
  rw [h2]; exact h3

/-! ## A family that takes cubic time -/

/-- `a y a y … a y`, `k` times. -/
def alternate (a y : T) (k : Nat) : List T := (List.replicate k [a, y]).flatten

theorem alternate_succ (a y : T) (k : Nat) : alternate a y (k + 1) = a :: y :: alternate a y k := by
  simp [alternate, List.replicate_succ]

theorem length_alternate (a y : T) (k : Nat) : (alternate a y k).length = 2 * k := by
  induction k with
  | zero => rfl
  | succ k ih => rw [alternate_succ, List.length_cons, List.length_cons, ih]; omega

theorem drop_alternate (a y : T) (i k : Nat) : (alternate a y (i + k)).drop (2 * i) = alternate a y k := by
  induction i with
  | zero => simp
  | succ i ih =>
    rw [show i + 1 + k = i + k + 1 by omega, alternate_succ, show 2 * (i + 1) = 2 * i + 1 + 1 by omega]
    exact ih

theorem getElem?_alternate (a y : T) (k i : Nat) :
    (alternate a y k)[i]? = if i < 2 * k then some (if i % 2 = 0 then a else y) else none := by
  induction k generalizing i with
  | zero => simp [alternate]
  | succ k ih =>
    rw [alternate_succ]
    match i with
    | 0 => rw [if_pos (by omega)]; rfl
    | 1 => rw [if_pos (by omega)]; rfl
    | i + 2 =>
      show (alternate a y k)[i]? = _
      rw [ih, show (i + 2) % 2 = i % 2 by omega]
      by_cases h : i < 2 * k
      · rw [if_pos h, if_pos (show i + 2 < 2 * (k + 1) by omega)]
      · rw [if_neg h, if_neg (show ¬ i + 2 < 2 * (k + 1) by omega)]

section
variable [DecidableEq T] {a y : T}

omit [DecidableEq T] in
theorem hit_alternate (hay : a ≠ y) {n j i : Nat} :
    Hit (List.replicate (2 * n) a) (alternate a y n) j i ↔ j < 2 * n ∧ i < 2 * n ∧ i % 2 = 0 := by
  unfold Hit
  rw [getElem?_alternate, List.getElem?_replicate]
  constructor
  · rintro ⟨x, h1, h2⟩
    split at h1
    · injection h1 with h1
      subst h1
      split at h2
      · injection h2 with h2
        split at h2
        · exact ⟨by assumption, by assumption, by assumption⟩
        · exact absurd h2.symm hay
      · cases h2
    · cases h1
  · rintro ⟨h1, h2, h3⟩
    exact ⟨a, by rw [if_pos h1], by rw [if_pos h2, if_pos h3]⟩

theorem positions_replicate (n : Nat) : positions (List.replicate n a) a = List.range n := by
  unfold positions
  rw [List.length_replicate, List.filter_eq_self]
  intro i hi
  rw [List.mem_range] at hi
  simp [hi]

theorem outerCost_alternate {indices : Indices T} {n : Nat} (hn : 0 < n)
    (hi : ∀ x, indices x = if x ∈ List.replicate n a then some (positions (List.replicate n a) x) else none) (k : Nat) :
    k * n ≤ outerCost indices n (alternate a y k) := by
  induction k with
  | zero => simp
  | succ k ih =>
    rw [alternate_succ, outerCost, outerCost]
    have h : indices a = some (List.range n) := by
      rw [hi, if_pos (by rw [List.mem_replicate]; exact ⟨by omega, rfl⟩), positions_replicate]
    have h2 : innerCost n (List.range n) = n := by
      rw [innerCost_all (fun j hj => List.mem_range.1 hj), List.length_range]
    rw [h]
    dsimp only
    rw [h2, Nat.succ_mul]
    omega

/-- The block found in what is left of the family. -/
theorem lcs_alternate (hay : a ≠ y) (p : Profile) (indices : Indices T) {n i : Nat} (hin : i < n)
    (hi : ∀ x, indices x = if x ∈ List.replicate (2 * n) a then some (positions (List.replicate (2 * n) a) x) else none) :
    longestCommonSubsequence p (List.replicate (2 * n) a) (alternate a y n) indices ⟨2 * i, 2 * n⟩ ⟨2 * i, 2 * n⟩ =
      .ok (some ⟨2 * i, 2 * i, if i + 1 < n then 2 else 1⟩) := by
  obtain ⟨r, e1, e2, e3⟩ := lcs_block (before := List.replicate (2 * n) a) (after := alternate a y n)
    (br := ⟨2 * i, 2 * n⟩) (ar := ⟨2 * i, 2 * n⟩) p indices hi
    ⟨by show 2 * i ≤ 2 * n; omega, by show 2 * n ≤ _; simp⟩
    ⟨by show 2 * i ≤ 2 * n; omega, by show 2 * n ≤ _; rw [length_alternate]; exact Nat.le_refl _⟩
  rw [e1]
  cases r with
  | none =>
    exact absurd ((hit_alternate hay (n := n) (j := 2 * i) (i := 2 * i)).2 ⟨by omega, by omega, by omega⟩)
      (e2 rfl (2 * i) (2 * i) (Nat.le_refl _) (by show 2 * i < 2 * n; omega) (Nat.le_refl _) (by show 2 * i < 2 * n; omega))
  | some c =>
    obtain ⟨⟨m, e, h1, h2, h3⟩, -, -⟩ := e3 c rfl
    have hm : m = 1 := by
      have := h1.pos
      rcases Nat.lt_or_ge 1 m with h | h
      · have r0 := h1.run 0 (by omega)
        have r1 := h1.run 1 h
        rw [hit_alternate hay] at r0 r1
        omega
      · omega
    subst hm
    have hf := h1.first (2 * i) (2 * i) (Nat.le_refl _) (by show 2 * i + 1 ≤ 2 * n; omega) (Nat.le_refl _)
      (by show 2 * i + 1 ≤ 2 * n; omega) (by
        intro t ht
        rw [hit_alternate hay]; omega)
    have hb := h1.inOld.1
    have ha := h1.inNew.1
    simp only at hb ha
    have ca : c.a = 2 * i := by omega
    have cb : c.b = 2 * i := by have := hf.2 ca.symm; omega
    have hr := h2.run
    have hs := h2.stop
    have hins := h2.inside
    rw [ca, cb] at hr hs hins
    simp only at hs hins
    have he : e = if i + 1 < n then 1 else 0 := by
      have e2 : e ≤ 1 := by
        rcases Nat.lt_or_ge 1 e with h | h
        · have r1 := hr 1 h
          rw [hit_alternate hay] at r1
          omega
        · exact h
      split
      · rcases Nat.eq_zero_or_pos e with h | h
        · subst h
          exact absurd ((hit_alternate hay).2 ⟨by omega, by omega, by omega⟩) (hs (by omega) (by omega))
        · omega
      · rcases Nat.eq_zero_or_pos e with h | h
        · exact h
        · have := hins h; omega
    have hc : c = ⟨2 * i, 2 * i, if i + 1 < n then 2 else 1⟩ := by
      obtain ⟨cb', ca', cn'⟩ := c
      simp only at ca cb h3
      subst ca cb
      rw [h3, he]
      congr 1
      split <;> rfl
    rw [hc]

/-- The count never falls. -/
theorem lcsesLoopC_le (p : Profile) (before after : List T) (indices : Indices T)
    (hi : ∀ x, indices x = if x ∈ before then some (positions before x) else none)
    (fuel : Nat) (lifo : List (Range × Range)) (raw : List CommonSubsequence) (n : Nat)
    (hf : lifoMeasure lifo ≤ fuel) (hin : LifoInside before after lifo) :
    ∃ raw' n', lcsesLoopC p before after indices fuel lifo raw n = .ok (raw', n') ∧ n ≤ n' := by
  obtain ⟨raw', d, e1, -, -⟩ := lcsesLoop_ok p before after indices hi fuel lifo raw hf hin
  obtain ⟨c, g1, -⟩ := lcsesLoopC_eq p before after indices hi (r := before.length) (fun x => by
    unfold positions
    exact Nat.le_trans (List.length_filter_le _ _) (by rw [List.length_range]; exact Nat.le_refl _)) fuel lifo raw n hin
  rw [e1] at g1
  exact ⟨raw', n + c, g1, by omega⟩

theorem lcsesLoopC_alternate (hay : a ≠ y) (p : Profile) (indices : Indices T) {n : Nat}
    (hi : ∀ x, indices x = if x ∈ List.replicate (2 * n) a then some (positions (List.replicate (2 * n) a) x) else none)
    (k i fuel : Nat) (raw : List CommonSubsequence) (m : Nat) (hk : i + (k + 1) = n) (hf : 4 * (k + 1) + 1 ≤ fuel) :
    ∃ raw' m', lcsesLoopC p (List.replicate (2 * n) a) (alternate a y n) indices fuel [(⟨2 * i, 2 * n⟩, ⟨2 * i, 2 * n⟩)] raw m =
      .ok (raw', m') ∧ m + n * ((k + 1) * (k + 2)) ≤ m' := by
  induction k generalizing i fuel raw m with
  | zero =>
    obtain ⟨fuel, rfl⟩ : ∃ f, fuel = f + 1 := ⟨fuel - 1, by omega⟩
    rw [lcsesLoopC]
    obtain ⟨c, g1, g2, -⟩ := lcsC_eq p (List.replicate (2 * n) a) (alternate a y n) indices ⟨2 * i, 2 * n⟩ ⟨2 * i, 2 * n⟩
      (by show 2 * i ≤ 2 * n; omega)
      ⟨by show 2 * i ≤ 2 * n; omega, by show 2 * n ≤ _; rw [length_alternate]; exact Nat.le_refl _⟩ (m + 1)
    rw [g1, lcs_alternate hay p indices (by omega) hi, if_neg (by omega)]
    have hcut : cut (alternate a y n) (2 * i) (2 * n) = alternate a y 1 := by
      rw [cut, ← hk, drop_alternate, List.take_of_length_le (by rw [length_alternate]; omega)]
    have hcost := outerCost_alternate (y := y) (by omega) hi 1
    simp only at g2
    rw [hcut] at g2
    obtain ⟨raw', m', f1, f2⟩ := lcsesLoopC_le p (List.replicate (2 * n) a) (alternate a y n) indices hi fuel
      [(⟨2 * i + 1, 2 * n⟩, ⟨2 * i + 1, 2 * n⟩)] (raw ++ [⟨2 * i, 2 * i, 1⟩]) (m + 1 + c)
      (by simp only [lifoMeasure]; omega) (by
        intro x hx
        rw [List.mem_singleton] at hx
        subst hx
        exact ⟨⟨by show 2 * i + 1 ≤ 2 * n; omega, by show 2 * n ≤ _; simp⟩,
          ⟨by show 2 * i + 1 ≤ 2 * n; omega, by show 2 * n ≤ _; rw [length_alternate]; exact Nat.le_refl _⟩⟩)
    refine ⟨raw', m', ?_, by omega⟩
    rw [← f1]
    show lcsesLoopC p _ _ indices fuel
      (if 2 * i + 1 < 2 * n ∧ 2 * i + 1 < 2 * n then (⟨2 * i + 1, 2 * n⟩, ⟨2 * i + 1, 2 * n⟩) ::
        (if 2 * i < 2 * i ∧ 2 * i < 2 * i then [(⟨2 * i, 2 * i⟩, ⟨2 * i, 2 * i⟩)] else [])
       else (if 2 * i < 2 * i ∧ 2 * i < 2 * i then [(⟨2 * i, 2 * i⟩, ⟨2 * i, 2 * i⟩)] else [])) _ _ = _
    rw [if_pos (by omega), if_neg (by omega)]
  | succ k ih =>
    obtain ⟨fuel, rfl⟩ : ∃ f, fuel = f + 1 := ⟨fuel - 1, by omega⟩
    rw [lcsesLoopC]
    obtain ⟨c, g1, g2, -⟩ := lcsC_eq p (List.replicate (2 * n) a) (alternate a y n) indices ⟨2 * i, 2 * n⟩ ⟨2 * i, 2 * n⟩
      (by show 2 * i ≤ 2 * n; omega)
      ⟨by show 2 * i ≤ 2 * n; omega, by show 2 * n ≤ _; rw [length_alternate]; exact Nat.le_refl _⟩ (m + 1)
    rw [g1, lcs_alternate hay p indices (by omega) hi, if_pos (by omega)]
    have hcut : cut (alternate a y n) (2 * i) (2 * n) = alternate a y (k + 2) := by
      rw [cut, ← hk, drop_alternate, List.take_of_length_le (by rw [length_alternate]; omega)]
    have hcost := outerCost_alternate (y := y) (by omega) hi (k + 2)
    simp only at g2
    rw [hcut] at g2
    obtain ⟨raw', m', f1, f2⟩ := ih (i + 1) fuel (raw ++ [⟨2 * i, 2 * i, 2⟩]) (m + 1 + c) (by omega) (by omega)
    refine ⟨raw', m', ?_, ?_⟩
    · rw [← f1]
      show lcsesLoopC p _ _ indices fuel
        (if 2 * i + 2 < 2 * n ∧ 2 * i + 2 < 2 * n then (⟨2 * i + 2, 2 * n⟩, ⟨2 * i + 2, 2 * n⟩) ::
          (if 2 * i < 2 * i ∧ 2 * i < 2 * i then [(⟨2 * i, 2 * i⟩, ⟨2 * i, 2 * i⟩)] else [])
         else (if 2 * i < 2 * i ∧ 2 * i < 2 * i then [(⟨2 * i, 2 * i⟩, ⟨2 * i, 2 * i⟩)] else [])) _ _ = _
      rw [if_pos (by omega), if_neg (by omega)]
      rfl
    · have : n * ((k + 1 + 1) * (k + 1 + 2)) = n * ((k + 1) * (k + 2)) + (k + 2) * (2 * n) := by
        have : (k + 1 + 1) * (k + 1 + 2) = (k + 1) * (k + 2) + 2 * (k + 2) := by
          rw [Nat.mul_comm (k + 1) (k + 2), Nat.mul_comm 2, ← Nat.mul_add]
        rw [this, Nat.mul_add, Nat.mul_left_comm n 2 (k + 2), Nat.mul_left_comm (k + 2) 2 n, Nat.mul_comm n (k + 2)]
      omega

theorem changesOfC_alternate [Item T] [LawfulItem T] (hay : a ≠ y) (p : Profile) (n : Nat) :
    ∃ ch m, changesOfC p (List.replicate (2 * n) a) (alternate a y n) = .ok (ch, m) ∧ n * (n * (n + 1)) ≤ m := by
  cases n with
  | zero =>
    obtain ⟨ch, m, -, h, -⟩ := changesOfC_eq p (List.replicate (2 * 0) a) (alternate a y 0)
    exact ⟨ch, m, h, by omega⟩
  | succ k =>
    obtain ⟨raw, m, h1, h2⟩ := lcsesLoopC_alternate hay p (Item.generateFrom (List.replicate (2 * (k + 1)) a)) (n := k + 1)
      (LawfulItem.generateFrom_eq _) k 0 (lcsesFuel (List.replicate (2 * (k + 1)) a)) [] 0 (by omega)
      (by simp [lcsesFuel]; omega)
    have e : (rangeFrom (List.replicate (2 * (k + 1)) a) 0, rangeFrom (alternate a y (k + 1)) 0) =
        ((⟨2 * 0, 2 * (k + 1)⟩, ⟨2 * 0, 2 * (k + 1)⟩) : Range × Range) := by
      simp [rangeFrom, length_alternate]
    refine ⟨_, m, by unfold changesOfC; rw [e, h1]; rfl, by simpa using h2⟩

end

end PwDiff
