import Verif.Proofs.Basic

/-! # The longest common run search (`longest_common_subsequence`) -/

namespace PwDiff

variable {T : Type}

/-- A common run of length `k` that ends at `(j, i)` and does not reach below `bs`, `as`. -/
def RunEnd (before after : List T) (bs as j i k : Nat) : Prop :=
  bs + k ≤ j + 1 ∧ as + k ≤ i + 1 ∧ CommonRun before after (j + 1 - k) (i + 1 - k) k

section runEnd
variable {before after : List T} {bs as j i k : Nat}

theorem RunEnd.hit (h : RunEnd before after bs as j i (k + 1)) : Hit before after j i := by
  obtain ⟨h1, h2, h3⟩ := h
  have := h3 k (by omega)
  rwa [show j + 1 - (k + 1) + k = j by omega, show i + 1 - (k + 1) + k = i by omega] at this

theorem runEnd_one : RunEnd before after bs as j i 1 ↔ Hit before after j i ∧ bs ≤ j ∧ as ≤ i := by
  constructor
  · intro h; exact ⟨h.hit, by have := h.1; omega, by have := h.2.1; omega⟩
  · rintro ⟨h1, h2, h3⟩
    refine ⟨by omega, by omega, ?_⟩
    intro t ht
    have : t = 0 := by omega
    subst this
    simpa using h1

theorem runEnd_succ (hk : 1 ≤ k) : RunEnd before after bs as j i (k + 1) ↔
    Hit before after j i ∧ 1 ≤ j ∧ 1 ≤ i ∧ RunEnd before after bs as (j - 1) (i - 1) k := by
  constructor
  · intro h
    obtain ⟨h1, h2, h3⟩ := h
    refine ⟨RunEnd.hit ⟨h1, h2, h3⟩, by omega, by omega, by omega, by omega, ?_⟩
    intro t ht
    have := h3 t (by omega)
    rwa [show j + 1 - (k + 1) = j - 1 + 1 - k by omega, show i + 1 - (k + 1) = i - 1 + 1 - k by omega] at this
  · rintro ⟨h0, hj, hi, h1, h2, h3⟩
    refine ⟨by omega, by omega, ?_⟩
    intro t ht
    by_cases htk : t = k
    · subst htk
      rwa [show j + 1 - (t + 1) + t = j by omega, show i + 1 - (t + 1) + t = i by omega]
    · have := h3 t (by omega)
      rwa [show j - 1 + 1 - k = j + 1 - (k + 1) by omega, show i - 1 + 1 - k = i + 1 - (k + 1) by omega] at this

theorem RunEnd.of_commonRun {b a n : Nat} (hb : bs ≤ b) (ha : as ≤ a) (hn : 1 ≤ n) (h : CommonRun before after b a n) :
    RunEnd before after bs as (b + n - 1) (a + n - 1) n := by
  refine ⟨by omega, by omega, ?_⟩
  rwa [show b + n - 1 + 1 - n = b by omega, show a + n - 1 + 1 - n = a by omega]

end runEnd

/-- What the inner loop computes on a list of indices in range. -/
theorem lcsInner_inRange (p : Profile) (br : Range) (index : Nat) (m : JMap) (js : List Nat)
    (hr : ∀ j ∈ js, br.start ≤ j ∧ j < br.fin) (hk : ∀ j ∈ js, kOf m j ≤ j + 1 ∧ kOf m j ≤ index + 1)
    (hs : js.Pairwise (· < ·)) (new : JMap) (best : CommonSubsequence) :
    ∃ new' best', lcsInner p br index m js new best = .ok (new', best') ∧
      (∀ z, new' z = if ∃ j ∈ js, z = (j : Int) then some (kOf m z.toNat) else new z) ∧
      best.n ≤ best'.n ∧ (∀ j ∈ js, kOf m j ≤ best'.n) ∧
      (best' = best ∨ ∃ j ∈ js, best' = ⟨j + 1 - kOf m j, index + 1 - kOf m j, kOf m j⟩ ∧ best.n < kOf m j ∧
        ∀ x ∈ js, x < j → kOf m x < kOf m j) := by
  induction js generalizing new best with
  | nil => exact ⟨new, best, rfl, by simp, by omega, by simp, .inl rfl⟩
  | cons j js ih =>
    have hj := hr j (by simp)
    have hkj := hk j (by simp)
    have ih' := ih (fun x hx => hr x (by simp [hx])) (fun x hx => hk x (by simp [hx]))
      (List.pairwise_cons.1 hs).2 (new.insert j (kOf m j))
    have hlt := (List.pairwise_cons.1 hs).1
    have step : ∀ best1 : CommonSubsequence, best.n ≤ best1.n → kOf m j ≤ best1.n →
        (best1 = best ∨ best1 = ⟨j + 1 - kOf m j, index + 1 - kOf m j, kOf m j⟩ ∧ best.n < kOf m j) →
        lcsInner p br index m (j :: js) new best = lcsInner p br index m js (new.insert j (kOf m j)) best1 →
        ∃ new' best', lcsInner p br index m (j :: js) new best = .ok (new', best') ∧
          (∀ z, new' z = if ∃ x ∈ j :: js, z = (x : Int) then some (kOf m z.toNat) else new z) ∧
          best.n ≤ best'.n ∧ (∀ x ∈ j :: js, kOf m x ≤ best'.n) ∧
          (best' = best ∨ ∃ x ∈ j :: js, best' = ⟨x + 1 - kOf m x, index + 1 - kOf m x, kOf m x⟩ ∧
            best.n < kOf m x ∧ ∀ y ∈ j :: js, y < x → kOf m y < kOf m x) := by
      intro best1 h1 h2 h3 heq
      obtain ⟨new', best', e1, e2, e3, e4, e5⟩ := ih' best1
      refine ⟨new', best', by rw [heq, e1], ?_, by omega, ?_, ?_⟩
      · intro z
        rw [e2 z]
        by_cases hz : ∃ x ∈ js, z = (x : Int)
        · obtain ⟨x, hx, rfl⟩ := hz
          rw [if_pos ⟨x, hx, rfl⟩, if_pos ⟨x, by simp [hx], rfl⟩]
        · rw [if_neg hz]
          by_cases hzj : z = (j : Int)
          · subst hzj
            rw [if_pos ⟨j, by simp, rfl⟩]
            simp [JMap.insert]
          · rw [if_neg]
            · simp [JMap.insert, hzj]
            · rintro ⟨x, hx, rfl⟩
              rcases List.mem_cons.1 hx with rfl | hx
              · exact hzj rfl
              · exact hz ⟨x, hx, rfl⟩
      · intro x hx
        rcases List.mem_cons.1 hx with rfl | hx
        · omega
        · exact e4 x hx
      · rcases e5 with rfl | ⟨x, hx, rfl, hx2, hx3⟩
        · rcases h3 with rfl | ⟨rfl, h3⟩
          · exact .inl rfl
          · refine .inr ⟨j, by simp, rfl, h3, ?_⟩
            intro y hy hyj
            rcases List.mem_cons.1 hy with rfl | hy
            · omega
            · have := hlt y hy; omega
        · refine .inr ⟨x, by simp [hx], rfl, by omega, ?_⟩
          intro y hy hyx
          rcases List.mem_cons.1 hy with rfl | hy
          · omega
          · exact hx3 y hy hyx
    by_cases hgt : kOf m j > best.len
    · apply step ⟨j + 1 - kOf m j, index + 1 - kOf m j, kOf m j⟩ (by simp [CommonSubsequence.len] at hgt; simp; omega)
        (by simp) (.inr ⟨rfl, hgt⟩)
      rw [lcsInner, if_neg (by omega), if_neg (by omega)]
      simp only [hgt, if_true, usub_ok hkj.1, usub_ok hkj.2, Outcome.ok_bind]
    · apply step best (by omega) (by simp [CommonSubsequence.len] at hgt; omega) (.inl rfl)
      rw [lcsInner, if_neg (by omega), if_neg (by omega)]
      simp only [hgt, if_false]

/-- `continue` and `break` select the indices in range (the index lists are increasing). -/
theorem lcsInner_filter (p : Profile) (br : Range) (index : Nat) (m : JMap) (js : List Nat)
    (hs : js.Pairwise (· < ·)) (new : JMap) (best : CommonSubsequence) :
    lcsInner p br index m js new best =
      lcsInner p br index m (js.filter (fun j => br.start ≤ j && j < br.fin)) new best := by
  induction js generalizing new best with
  | nil => rfl
  | cons j js ih =>
    have hs' := List.pairwise_cons.1 hs
    by_cases h1 : j < br.start
    · rw [lcsInner, if_pos h1, ih hs'.2, List.filter_cons_of_neg (by simp; omega)]
    · by_cases h2 : j ≥ br.fin
      · rw [lcsInner, if_neg h1, if_pos h2]
        have : ((j :: js).filter (fun j => decide (br.start ≤ j) && decide (j < br.fin))) = [] := by
          rw [List.filter_eq_nil_iff]
          intro x hx
          rcases List.mem_cons.1 hx with rfl | hx
          · simp; omega
          · have := hs'.1 x hx; simp; omega
        rw [this, lcsInner]
      · rw [List.filter_cons_of_pos (by simp; omega), lcsInner, lcsInner, if_neg h1, if_neg h2, if_neg h1, if_neg h2]
        simp only [ih hs'.2]

section outer
variable (before after : List T) (br : Range) (as : Nat)

/-- The map after row `i` holds the length of the longest run ending at each `(j, i)`. -/
def RowOk (m : JMap) (i : Nat) : Prop :=
  (∀ z : Int, z < br.start ∨ (br.fin : Int) ≤ z → m z = none) ∧
  ∀ j : Nat, br.start ≤ j → j < br.fin →
    match m (j : Int) with
    | none => ¬ RunEnd before after br.start as j i 1
    | some k => 1 ≤ k ∧ RunEnd before after br.start as j i k ∧ ¬ RunEnd before after br.start as j i (k + 1)

/-- The map before row `index` is processed. -/
def PrevOk (m : JMap) (index : Nat) : Prop :=
  (index = as ∧ ∀ z, m z = none) ∨ (as < index ∧ RowOk before after br as m (index - 1))

/-- `best` is a longest run in the rows below `upTo`; among these it is the one that ends first in `after`, and then
first in `before`. -/
def BestOk (best : CommonSubsequence) (upTo : Nat) : Prop :=
  (best = ⟨0, 0, 0⟩ ∨
    (1 ≤ best.n ∧ br.start ≤ best.b ∧ best.b + best.n ≤ br.fin ∧ as ≤ best.a ∧ best.a + best.n ≤ upTo ∧
      CommonRun before after best.b best.a best.n)) ∧
  (∀ j i k, br.start ≤ j → j < br.fin → as ≤ i → i < upTo → RunEnd before after br.start as j i k → k ≤ best.n) ∧
  ∀ j i, 1 ≤ best.n → br.start ≤ j → j < br.fin → as ≤ i → i < upTo → RunEnd before after br.start as j i best.n →
    best.a + best.n ≤ i + 1 ∧ (best.a + best.n = i + 1 → best.b + best.n ≤ j + 1)

end outer

theorem kOf_spec {before after : List T} {br : Range} {as : Nat} {m : JMap} {index j : Nat}
    (hm : PrevOk before after br as m index) (hj1 : br.start ≤ j) (hj2 : j < br.fin)
    (hh : Hit before after j index) :
    1 ≤ kOf m j ∧ RunEnd before after br.start as j index (kOf m j) ∧
      ¬ RunEnd before after br.start as j index (kOf m j + 1) := by
  rcases hm with ⟨rfl, hm⟩ | ⟨hlt, hm⟩
  · have : kOf m j = 1 := by simp [kOf, hm]
    rw [this]
    refine ⟨by omega, runEnd_one.2 ⟨hh, hj1, by omega⟩, ?_⟩
    rintro ⟨-, h, -⟩; omega
  · by_cases hjs : j = br.start
    · have : kOf m j = 1 := by
        have := hm.1 ((j : Int) - 1) (by omega)
        simp [kOf, this]
      rw [this]
      refine ⟨by omega, runEnd_one.2 ⟨hh, hj1, by omega⟩, ?_⟩
      rintro ⟨h, -, -⟩; omega
    · have hrow := hm.2 (j - 1) (by omega) (by omega)
      have hcast : ((j - 1 : Nat) : Int) = (j : Int) - 1 := by omega
      rw [hcast] at hrow
      cases hmj : m ((j : Int) - 1) with
      | none =>
        rw [hmj] at hrow
        have : kOf m j = 1 := by simp [kOf, hmj]
        rw [this]
        refine ⟨by omega, runEnd_one.2 ⟨hh, hj1, by omega⟩, ?_⟩
        rw [runEnd_succ (by omega)]
        rintro ⟨-, -, -, h⟩
        exact hrow h
      | some k =>
        rw [hmj] at hrow
        have : kOf m j = k + 1 := by simp [kOf, hmj]
        rw [this]
        obtain ⟨h1, h2, h3⟩ := hrow
        refine ⟨by omega, (runEnd_succ h1).2 ⟨hh, by omega, by omega, h2⟩, ?_⟩
        rw [runEnd_succ (by omega)]
        rintro ⟨-, -, -, h⟩
        exact h3 h

theorem lcsOuter_spec [DecidableEq T] (p : Profile) (before after : List T) (indices : Indices T)
    (hi : ∀ x, indices x = if x ∈ before then some (positions before x) else none)
    (br : Range) (as : Nat) (items : List T) (index : Nat) (hidx : as ≤ index)
    (hitems : ∀ t < items.length, after[index + t]? = items[t]?)
    (m : JMap) (hm : PrevOk before after br as m index) (best : CommonSubsequence)
    (hb : BestOk before after br as best index) :
    ∃ best', lcsOuter p indices br items index m best = .ok best' ∧
      BestOk before after br as best' (index + items.length) := by
  induction items generalizing index m best with
  | nil => exact ⟨best, rfl, by simpa using hb⟩
  | cons item rest ih =>
    have hitem : after[index]? = some item := by
      have := hitems 0 (by simp)
      simpa using this
    have hrest : ∀ t < rest.length, after[index + 1 + t]? = rest[t]? := by
      intro t ht
      have := hitems (t + 1) (by simp; omega)
      rw [show index + 1 + t = index + (t + 1) by omega, this]
      simp
    have hhit : ∀ j, Hit before after j index ↔ before[j]? = some item := by
      intro j
      constructor
      · rintro ⟨x, h1, h2⟩
        rw [hitem] at h2
        injection h2 with h2
        rw [h1, h2]
      · intro h; exact ⟨item, h, hitem⟩
    unfold lcsOuter
    rw [hi item]
    by_cases hmem : item ∈ before
    · simp only [hmem, if_true]
      rw [lcsInner_filter p br index m _ (positions_sorted before item)]
      let js := (positions before item).filter (fun j => decide (br.start ≤ j) && decide (j < br.fin))
      have hjs : ∀ j, j ∈ js ↔ before[j]? = some item ∧ br.start ≤ j ∧ j < br.fin := by
        intro j
        simp only [js, List.mem_filter, mem_positions, Bool.and_eq_true, decide_eq_true_eq]
      have hspec : ∀ j ∈ js, 1 ≤ kOf m j ∧ RunEnd before after br.start as j index (kOf m j) ∧
          ¬ RunEnd before after br.start as j index (kOf m j + 1) := by
        intro j hj
        obtain ⟨h1, h2, h3⟩ := (hjs j).1 hj
        exact kOf_spec hm h2 h3 ((hhit j).2 h1)
      obtain ⟨new', best', e1, e2, e3, e4, e5⟩ := lcsInner_inRange p br index m js
        (fun j hj => ((hjs j).1 hj).2) (fun j hj => by
          obtain ⟨_, ⟨h1, h2, _⟩, _⟩ := hspec j hj
          omega) ((positions_sorted before item).filter _) (fun _ => none) best
      rw [show lcsInner p br index m (List.filter (fun j => decide (br.start ≤ j) && decide (j < br.fin))
        (positions before item)) (fun _ => none) best = _ from e1]
      simp only [Outcome.ok_bind]
      have hrow : RowOk before after br as new' index := by
        constructor
        · intro z hz
          rw [e2 z, if_neg]
          rintro ⟨j, hj, rfl⟩
          have := (hjs j).1 hj
          omega
        · intro j hj1 hj2
          rw [e2 j]
          by_cases hin : j ∈ js
          · rw [if_pos ⟨j, hin, rfl⟩]
            simpa using hspec j hin
          · rw [if_neg (by
              rintro ⟨x, hx, hxj⟩
              have : x = j := by omega
              subst this
              exact hin hx)]
            simp only
            intro h
            exact hin ((hjs j).2 ⟨(hhit j).1 (runEnd_one.1 h).1, hj1, hj2⟩)
      have hlong : ∀ j k, br.start ≤ j → j < br.fin → 1 ≤ k → RunEnd before after br.start as j index k →
          j ∈ js ∧ k ≤ kOf m j := by
        intro j k hj1 hj2 hk hrun
        obtain ⟨k, rfl⟩ : ∃ k', k = k' + 1 := ⟨k - 1, by omega⟩
        have hin : j ∈ js := (hjs j).2 ⟨(hhit j).1 hrun.hit, hj1, hj2⟩
        obtain ⟨h1, h2, h3⟩ := hspec j hin
        refine ⟨hin, ?_⟩
        rcases Nat.lt_or_ge (kOf m j) (k + 1) with hlt | hge
        · exfalso
          apply h3
          obtain ⟨a1, a2, a3⟩ := hrun
          refine ⟨by omega, by omega, ?_⟩
          intro t ht
          have := a3 (t + (k + 1) - (kOf m j + 1)) (by omega)
          rwa [show j + 1 - (k + 1) + (t + (k + 1) - (kOf m j + 1)) = j + 1 - (kOf m j + 1) + t by omega,
            show index + 1 - (k + 1) + (t + (k + 1) - (kOf m j + 1)) = index + 1 - (kOf m j + 1) + t by omega] at this
        · exact hge
      have hbest' : BestOk before after br as best' (index + 1) := by
        refine ⟨?_, ?_, ?_⟩
        · rcases e5 with rfl | ⟨j, hj, rfl, -, -⟩
          · rcases hb.1 with h | ⟨h1, h2, h3, h4, h5, h6⟩
            · exact .inl h
            · exact .inr ⟨h1, h2, h3, h4, by omega, h6⟩
          · obtain ⟨h1, ⟨h2, h3, h4⟩, _⟩ := hspec j hj
            obtain ⟨h5, h6, h7⟩ := (hjs j).1 hj
            refine .inr ⟨by simp; omega, by simp; omega, by simp; omega, by simp; omega, by simp; omega, h4⟩
        · intro j i k hj1 hj2 hi1 hi2 hrun
          by_cases hii : i = index
          · subst hii
            cases k with
            | zero => omega
            | succ k =>
              obtain ⟨hin, hle⟩ := hlong j (k + 1) hj1 hj2 (by omega) hrun
              have := e4 j hin
              omega
          · have := hb.2.1 j i k hj1 hj2 hi1 (by omega) hrun
            omega
        · intro j i hpos hj1 hj2 hi1 hi2 hrun
          rcases e5 with rfl | ⟨j0, hj0, rfl, hj3, hj4⟩
          · by_cases hii : i = index
            · rcases hb.1 with h | ⟨h1, h2, h3, h4, h5, h6⟩
              · rw [h] at hpos; simp at hpos
              · omega
            · exact hb.2.2 j i hpos hj1 hj2 hi1 (by omega) hrun
          · simp only at hrun hpos ⊢
            by_cases hii : i = index
            · subst hii
              obtain ⟨hin, hle⟩ := hlong j _ hj1 hj2 hpos hrun
              have hk0 := (hspec j0 hj0).2.1.1
              have hk1 := (hspec j0 hj0).2.1.2.1
              refine ⟨by omega, fun _ => ?_⟩
              rcases Nat.lt_or_ge j j0 with h | h
              · have := hj4 j hin h; omega
              · omega
            · have := hb.2.1 j i _ hj1 hj2 hi1 (by omega) hrun
              omega
      obtain ⟨best'', f1, f2⟩ := ih (index + 1) (by omega) hrest new' (.inr ⟨by omega, by simpa using hrow⟩) best' hbest'
      refine ⟨best'', f1, ?_⟩
      rw [List.length_cons, show index + (rest.length + 1) = index + 1 + rest.length by omega]
      exact f2
    · simp only [hmem, if_false]
      have nohit : ∀ j, ¬ Hit before after j index := by
        intro j h
        exact hmem (List.mem_of_getElem? ((hhit j).1 h))
      have hrow : RowOk before after br as (fun _ => none) index := by
        constructor
        · intros; rfl
        · intro j _ _ h
          exact nohit j (runEnd_one.1 h).1
      have hbest' : BestOk before after br as best (index + 1) := by
        refine ⟨?_, ?_, ?_⟩
        · rcases hb.1 with h | ⟨h1, h2, h3, h4, h5, h6⟩
          · exact .inl h
          · exact .inr ⟨h1, h2, h3, h4, by omega, h6⟩
        · intro j i k hj1 hj2 hi1 hi2 hrun
          by_cases hii : i = index
          · subst hii
            cases k with
            | zero => omega
            | succ k => exact absurd hrun.hit (nohit j)
          · exact hb.2.1 j i k hj1 hj2 hi1 (by omega) hrun
        · intro j i hpos hj1 hj2 hi1 hi2 hrun
          by_cases hii : i = index
          · subst hii
            rw [show best.n = best.n - 1 + 1 by omega] at hrun
            exact absurd hrun.hit (nohit j)
          · exact hb.2.2 j i hpos hj1 hj2 hi1 (by omega) hrun
      obtain ⟨best'', f1, f2⟩ := ih (index + 1) (by omega) hrest (fun _ => none) (.inr ⟨by omega, by simpa using hrow⟩)
        best hbest'
      refine ⟨best'', f1, ?_⟩
      rw [List.length_cons, show index + (rest.length + 1) = index + 1 + rest.length by omega]
      exact f2

/-! ## `matchCount` -/

theorem matchCount_le [DecidableEq T] (xs ys : List T) :
    matchCount xs ys ≤ xs.length ∧ matchCount xs ys ≤ ys.length := by
  induction xs generalizing ys with
  | nil => simp [matchCount]
  | cons x xs ih =>
    cases ys with
    | nil => simp [matchCount]
    | cons y ys =>
      have := ih ys
      simp only [matchCount, List.zip_cons_cons, List.takeWhile_cons] at this ⊢
      split <;> simp <;> omega

theorem matchCount_eq [DecidableEq T] (xs ys : List T) : ∀ t < matchCount xs ys, xs[t]? = ys[t]? := by
  induction xs generalizing ys with
  | nil => simp [matchCount]
  | cons x xs ih =>
    cases ys with
    | nil => simp [matchCount]
    | cons y ys =>
      intro t ht
      by_cases hxy : x = y
      · subst hxy
        cases t with
        | zero => simp
        | succ t =>
          simp only [List.getElem?_cons_succ]
          apply ih ys
          simp [matchCount] at ht
          simpa [matchCount] using ht
      · simp [matchCount, hxy] at ht

theorem matchCount_max [DecidableEq T] (xs ys : List T) (h1 : matchCount xs ys < xs.length)
    (h2 : matchCount xs ys < ys.length) : xs[matchCount xs ys]? ≠ ys[matchCount xs ys]? := by
  induction xs generalizing ys with
  | nil => simp [matchCount] at h1
  | cons x xs ih =>
    cases ys with
    | nil => simp [matchCount] at h2
    | cons y ys =>
      by_cases hxy : x = y
      · subst hxy
        have he : matchCount (x :: xs) (x :: ys) = matchCount xs ys + 1 := by simp [matchCount]
        rw [he] at h1 h2 ⊢
        simp only [List.getElem?_cons_succ]
        exact ih ys (by simpa using h1) (by simpa using h2)
      · have he : matchCount (x :: xs) (y :: ys) = 0 := by simp [matchCount, hxy]
        rw [he]
        simpa using hxy

theorem cut_getElem? (l : List T) (a b t : Nat) : (cut l a b)[t]? = if t < b - a then l[a + t]? else none := by
  unfold cut
  rw [List.getElem?_take, List.getElem?_drop]

theorem length_cut (l : List T) (a b : Nat) (hb : b ≤ l.length) : (cut l a b).length = b - a := by
  simp [cut]; omega

theorem subsequence_ok {l : List T} {r : Range} (h : r.start ≤ r.fin) (h2 : r.fin ≤ l.length) :
    subsequence l r = .ok (cut l r.start r.fin) := by
  rw [subsequence, slice_ok h h2]; rfl

/-- The complete behaviour of `longest_common_subsequence` on ranges inside the sequences: it never panics; `None`
means no common item; a block starts with a longest common run (of length `n0`), and if it is longer than that run,
then the item right after the run is *different* in the two sequences and the remaining items are equal. -/
theorem lcs_spec [DecidableEq T] (p : Profile) (before after : List T) (indices : Indices T)
    (hi : ∀ x, indices x = if x ∈ before then some (positions before x) else none)
    (br ar : Range) (hbr : br.Inside before) (har : ar.Inside after) :
    ∃ r, longestCommonSubsequence p before after indices br ar = .ok r ∧
      (∀ j i k, br.start ≤ j → j + k ≤ br.fin → ar.start ≤ i → i + k ≤ ar.fin → 1 ≤ k →
        CommonRun before after j i k → ∃ c, r = some c ∧ k ≤ c.n) ∧
      ∀ c, r = some c → br.start ≤ c.b ∧ c.b + c.n ≤ br.fin ∧ ar.start ≤ c.a ∧ c.a + c.n ≤ ar.fin ∧
        ∃ n0, 1 ≤ n0 ∧ n0 ≤ c.n ∧ CommonRun before after c.b c.a n0 ∧
          (∀ j i k, br.start ≤ j → j + k ≤ br.fin → ar.start ≤ i → i + k ≤ ar.fin →
            CommonRun before after j i k → k ≤ n0) ∧
          (n0 < c.n → ¬ Hit before after (c.b + n0) (c.a + n0) ∧
            CommonRun before after (c.b + n0 + 1) (c.a + n0 + 1) (c.n - n0) ∧
            c.b + c.n + 1 ≤ br.fin ∧ c.a + c.n + 1 ≤ ar.fin) ∧
          (c.b + n0 + 1 < br.fin → c.a + n0 + 1 < ar.fin → n0 = c.n →
            ¬ Hit before after (c.b + n0 + 1) (c.a + n0 + 1)) ∧
          (n0 < c.n → c.b + c.n + 1 < br.fin → c.a + c.n + 1 < ar.fin →
            ¬ Hit before after (c.b + c.n + 1) (c.a + c.n + 1)) ∧
          ∀ j i, br.start ≤ j → j + n0 ≤ br.fin → ar.start ≤ i → i + n0 ≤ ar.fin → CommonRun before after j i n0 →
            c.a ≤ i ∧ (i = c.a → c.b ≤ j) := by
  unfold longestCommonSubsequence
  rw [subsequence_ok har.1 har.2]
  simp only [Outcome.ok_bind]
  have hlen : (cut after ar.start ar.fin).length = ar.fin - ar.start := length_cut _ _ _ har.2
  obtain ⟨best, e1, e2, e3, e4⟩ := lcsOuter_spec p before after indices hi br ar.start (cut after ar.start ar.fin) ar.start
    (Nat.le_refl _) (by
      intro t ht
      rw [hlen] at ht
      rw [cut_getElem?, if_pos ht]) (fun _ => none) (.inl ⟨rfl, fun _ => rfl⟩) CommonSubsequence.default
      ⟨.inl rfl, by intros; omega, by intros; omega⟩
  rw [hlen, show ar.start + (ar.fin - ar.start) = ar.fin by have := har.1; omega] at e2 e3 e4
  rw [e1]
  simp only [Outcome.ok_bind]
  have maxRun : ∀ j i k, br.start ≤ j → j + k ≤ br.fin → ar.start ≤ i → i + k ≤ ar.fin →
      CommonRun before after j i k → k ≤ best.n := by
    intro j i k h1 h2 h3 h4 h5
    rcases Nat.eq_zero_or_pos k with h0 | h0
    · omega
    · exact e3 _ _ k (by omega) (by omega) (by omega) (by omega) (RunEnd.of_commonRun h1 h3 h0 h5)
  have firstRun : 1 ≤ best.n → ∀ j i, br.start ≤ j → j + best.n ≤ br.fin → ar.start ≤ i → i + best.n ≤ ar.fin →
      CommonRun before after j i best.n → best.a ≤ i ∧ (i = best.a → best.b ≤ j) := by
    intro h0 j i h1 h2 h3 h4 h5
    have := e4 _ _ h0 (by omega) (by omega) (by omega) (by omega) (RunEnd.of_commonRun h1 h3 h0 h5)
    omega
  rcases e2 with rfl | ⟨hn, hb1, hb2, ha1, ha2, hrun⟩
  · refine ⟨none, by simp [CommonSubsequence.isEmpty], ?_, by simp⟩
    intro j i k h1 h2 h3 h4 h5 h6
    have := maxRun j i k h1 h2 h3 h4 h6
    simp at this; omega
  · have hne : best.isEmpty = false := by simp [CommonSubsequence.isEmpty]; omega
    simp only [hne, Bool.false_eq_true, if_false]
    rw [subsequence_ok (r := ⟨br.start, best.beforeStart⟩) hb1 (by have := hbr.2; simp [CommonSubsequence.beforeStart]; omega)]
    rw [subsequence_ok (r := ⟨ar.start, best.afterStart⟩) ha1 (by have := har.2; simp [CommonSubsequence.afterStart]; omega)]
    simp only [Outcome.ok_bind]
    have lb : (cut before br.start best.beforeStart).length = best.b - br.start :=
      length_cut _ _ _ (by have := hbr.2; simp [CommonSubsequence.beforeStart]; omega)
    have la : (cut after ar.start best.afterStart).length = best.a - ar.start :=
      length_cut _ _ _ (by have := har.2; simp [CommonSubsequence.afterStart]; omega)
    -- by maximality the run cannot be extended to the left
    have hc0 : matchCount (cut before br.start best.beforeStart).reverse (cut after ar.start best.afterStart).reverse = 0 := by
      apply Nat.eq_zero_of_not_pos
      intro hpos
      have hle := matchCount_le (cut before br.start best.beforeStart).reverse (cut after ar.start best.afterStart).reverse
      rw [List.length_reverse, List.length_reverse, lb, la] at hle
      have h0 := matchCount_eq _ _ 0 hpos
      rw [List.getElem?_reverse (by rw [lb]; omega), List.getElem?_reverse (by rw [la]; omega), lb, la,
        cut_getElem?, cut_getElem?, if_pos (by simp [CommonSubsequence.beforeStart]; omega),
        if_pos (by simp [CommonSubsequence.afterStart]; omega)] at h0
      rw [show br.start + (best.b - br.start - 1 - 0) = best.b - 1 by omega,
        show ar.start + (best.a - ar.start - 1 - 0) = best.a - 1 by omega] at h0
      have hx : best.b - 1 < before.length := by have := hbr.2; omega
      have hhit : Hit before after (best.b - 1) (best.a - 1) :=
        ⟨before[best.b - 1], List.getElem?_eq_getElem hx, by rw [← h0]; exact List.getElem?_eq_getElem hx⟩
      have := maxRun (best.b - 1) (best.a - 1) (best.n + 1) (by omega) (by omega) (by omega) (by omega) (by
        intro t ht
        by_cases ht0 : t = 0
        · subst ht0; exact hhit
        · have := hrun (t - 1) (by omega)
          rwa [show best.b - 1 + t = best.b + (t - 1) by omega, show best.a - 1 + t = best.a + (t - 1) by omega])
      omega
    rw [hc0]
    have hincr : best.incrSizeMovingStarts p (min (min 0 best.beforeStart) best.afterStart) = .ok best := by
      simp [CommonSubsequence.incrSizeMovingStarts, usub_ok]
    rw [hincr]
    simp only [Outcome.ok_bind]
    by_cases hext : best.beforeEnd + 1 < br.fin ∧ best.afterEnd + 1 < ar.fin
    · rw [if_pos hext]
      simp only [CommonSubsequence.beforeEnd, CommonSubsequence.afterEnd] at hext ⊢
      rw [subsequence_ok (r := ⟨best.b + best.n + 1, br.fin⟩) (by simp; omega) hbr.2]
      rw [subsequence_ok (r := ⟨best.a + best.n + 1, ar.fin⟩) (by simp; omega) har.2]
      simp only [Outcome.ok_bind, Outcome.pure_eq]
      generalize hcnt : matchCount (cut before (best.b + best.n + 1) br.fin) (cut after (best.a + best.n + 1) ar.fin) = cnt
      have hle := matchCount_le (cut before (best.b + best.n + 1) br.fin) (cut after (best.a + best.n + 1) ar.fin)
      have heq := matchCount_eq (cut before (best.b + best.n + 1) br.fin) (cut after (best.a + best.n + 1) ar.fin)
      have hmx := matchCount_max (cut before (best.b + best.n + 1) br.fin) (cut after (best.a + best.n + 1) ar.fin)
      rw [hcnt, length_cut _ _ _ hbr.2, length_cut _ _ _ har.2] at hle hmx
      rw [hcnt] at heq
      have tailHit : ∀ t < cnt, Hit before after (best.b + best.n + 1 + t) (best.a + best.n + 1 + t) := by
        intro t ht
        have h := heq t ht
        rw [cut_getElem?, cut_getElem?, if_pos (by omega), if_pos (by omega)] at h
        have hx : best.b + best.n + 1 + t < before.length := by have := hbr.2; omega
        exact ⟨before[best.b + best.n + 1 + t], List.getElem?_eq_getElem hx, by
          rw [← h]; exact List.getElem?_eq_getElem hx⟩
      have noHit : ¬ Hit before after (best.b + best.n) (best.a + best.n) := by
        intro hh
        have := maxRun best.b best.a (best.n + 1) hb1 (by omega) ha1 (by omega) (by
          intro t ht
          by_cases htn : t = best.n
          · subst htn; exact hh
          · exact hrun t (by omega))
        omega
      have stopHit : best.b + best.n + 1 + cnt < br.fin → best.a + best.n + 1 + cnt < ar.fin →
          ¬ Hit before after (best.b + best.n + 1 + cnt) (best.a + best.n + 1 + cnt) := by
        intro hx hy
        have h := hmx (by omega) (by omega)
        rw [cut_getElem?, cut_getElem?, if_pos (by omega), if_pos (by omega)] at h
        rintro ⟨x, h1, h2⟩
        exact h (h1.trans h2.symm)
      refine ⟨_, rfl, ?_, ?_⟩
      · intro j i k h1 h2 h3 h4 h5 h6
        refine ⟨_, rfl, ?_⟩
        have := maxRun j i k h1 h2 h3 h4 h6
        simp [CommonSubsequence.incrSizeMovingEnds]; omega
      · rintro c hc
        injection hc with hc
        subst hc
        simp only [CommonSubsequence.incrSizeMovingEnds]
        refine ⟨hb1, by omega, ha1, by omega, best.n, hn, by omega, hrun, maxRun, ?_, ?_, ?_, firstRun hn⟩
        · intro hlt
          refine ⟨noHit, ?_, by omega, by omega⟩
          rw [show best.n + cnt - best.n = cnt by omega]
          exact tailHit
        · intro h1 h2 h3
          have : cnt = 0 := by omega
          subst this
          exact stopHit (by omega) (by omega)
        · intro h1 h2 h3
          have := stopHit (by omega) (by omega)
          rwa [show best.b + best.n + 1 + cnt = best.b + (best.n + cnt) + 1 by omega,
            show best.a + best.n + 1 + cnt = best.a + (best.n + cnt) + 1 by omega] at this
    · rw [if_neg hext]
      simp only [CommonSubsequence.beforeEnd, CommonSubsequence.afterEnd] at hext
      refine ⟨some best, rfl, ?_, ?_⟩
      · intro j i k h1 h2 h3 h4 h5 h6
        exact ⟨best, rfl, maxRun j i k h1 h2 h3 h4 h6⟩
      · rintro c hc
        injection hc with hc
        subst hc
        refine ⟨hb1, hb2, ha1, ha2, best.n, hn, by omega, hrun, maxRun, by omega, ?_, by omega, firstRun hn⟩
        intro h1 h2 _
        exact absurd ⟨h1, h2⟩ hext

end PwDiff
