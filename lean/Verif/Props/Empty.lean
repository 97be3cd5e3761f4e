import Verif.Props.Mirror
import Verif.Props.Hidden

/-! # C16: exactly when a diff is empty -/

namespace PwDiff

section

variable {T : Type} [DecidableEq T] [Item T] [LawfulItem T] {before after : List T}

/-- Two different files whose differences are all stepped over: the first `n` lines agree, no other common run is longer, the next line
differs, the next `e` agree; if this is not the end, then from the last of these on every other one of the rest agrees, the last line
does, and no two lines in a row of the one rest stand in a row in the other. -/
structure Overlooked (before after : List T) (n e k : Nat) : Prop where
  some : 0 < n ∧ 0 < e
  oldSize : before.length = n + e + 2 * k + 1
  newSize : after.length = n + e + 2 * k + 1
  first : CommonRun before after 0 0 n
  longest : ∀ j i m, CommonRun before after j i m → m ≤ n
  next : CommonRun before after (n + 1) (n + 1) e
  other : ∀ t, t ≤ k → Hit before after (n + e + 2 * t) (n + e + 2 * t)
  apart : 0 < k → ∀ j i, n + e ≤ j → n + e ≤ i → ¬ CommonRun before after j i 2

omit [DecidableEq T] [Item T] [LawfulItem T] in
/-- If the diagonal of a square region is covered, the first block begins at its corner. -/
theorem Decomp.corner {r L : Nat} {d : List CommonSubsequence} (h : Decomp before after r L r L d) (hr : r < L)
    (hc : ∀ t, r ≤ t → t < L → Covered d t t) :
    ∃ n e R, IsChosen before after ⟨r, L⟩ ⟨r, L⟩ r r n ∧ SkipsOne before after ⟨r, L⟩ ⟨r, L⟩ (r + n) (r + n) e ∧
      Decomp before after (r + n + e) L (r + n + e) L R ∧ ∀ t, r + n + e ≤ t → t < L → Covered R t t := by
  cases h with
  | leaf h1 h2 h => obtain ⟨c, hm, -⟩ := hc r (Nat.le_refl _) hr; cases hm
  | @node _ _ _ _ c L' R hb hl hr' =>
    obtain ⟨n, e, h1, h2, h3⟩ := hb
    have h0 := h1.pos
    have i1 := h1.inOld
    have i2 := h1.inNew
    simp only at i1 i2
    have left : ∀ j i, Covered (L' ++ c :: R) j i → j < c.b → Covered L' j i := by
      rintro j i ⟨x, hx, hcov⟩ hj
      rcases List.mem_append.1 hx with hx | hx
      · exact ⟨x, hx, hcov⟩
      · rcases List.mem_cons.1 hx with rfl | hx
        · obtain ⟨t, t1, t2, t3⟩ := hcov
          omega
        · have := hr'.inside ⟨x, hx, hcov⟩
          omega
    have middle : ∀ j i, Covered (L' ++ c :: R) j i → c.b ≤ j → j < c.b + c.n → c.Covers j i := by
      rintro j i ⟨x, hx, hcov⟩ hj hj'
      rcases List.mem_append.1 hx with hx | hx
      · have := hl.inside ⟨x, hx, hcov⟩
        omega
      · rcases List.mem_cons.1 hx with rfl | hx
        · exact hcov
        · have := hr'.inside ⟨x, hx, hcov⟩
          omega
    have right : ∀ j i, Covered (L' ++ c :: R) j i → c.b + c.n ≤ j → Covered R j i := by
      rintro j i ⟨x, hx, hcov⟩ hj
      rcases List.mem_append.1 hx with hx | hx
      · have := hl.inside ⟨x, hx, hcov⟩
        omega
      · rcases List.mem_cons.1 hx with rfl | hx
        · obtain ⟨t, t1, t2, t3⟩ := hcov
          omega
        · exact ⟨x, hx, hcov⟩
    have hba : c.b = c.a := by
      obtain ⟨t, t1, t2, t3⟩ := middle c.b c.b (hc _ i1.1 (by omega)) (Nat.le_refl _) (by omega)
      omega
    have hbr : c.b = r := by
      apply Classical.byContradiction
      intro hne
      have hlast := hl.last (by rw [hba]; exact left _ _ (hc (c.a - 1) (by omega) (by omega)) (by omega))
      have := h1.longest (c.b - 1) (c.a - 1) (n + 1) (by simp only; omega) (by simp only; omega) (by simp only; omega) (by simp only; omega) (by
        intro t ht
        cases t with
        | zero => exact hlast
        | succ t =>
          have := h1.run t (by omega)
          rwa [show c.b - 1 + (t + 1) = c.b + t by omega, show c.a - 1 + (t + 1) = c.a + t by omega])
      omega
    have har : c.a = r := by omega
    rw [hbr, har] at h1 h2
    rw [hbr, har, h3, ← Nat.add_assoc] at hr'
    refine ⟨n, e, R, h1, h2, hr', ?_⟩
    intro t ht1 ht2
    exact right _ _ (hc t (by omega) ht2) (by omega)

omit [DecidableEq T] [Item T] [LawfulItem T] in
/-- A region that begins with a single equal pair. -/
theorem Decomp.alternate {L : Nat} : ∀ (m r : Nat) {d : List CommonSubsequence}, L - r ≤ m → Decomp before after r L r L d → r < L →
    (∀ t, r ≤ t → t < L → Covered d t t) → (r + 1 < L → ¬ Hit before after (r + 1) (r + 1)) →
    ∃ k, L = r + 2 * k + 1 ∧ (∀ t, t ≤ k → Hit before after (r + 2 * t) (r + 2 * t)) ∧
      (0 < k → ∀ j i, r ≤ j → r ≤ i → j + 2 ≤ L → i + 2 ≤ L → ¬ CommonRun before after j i 2) := by
  intro m
  induction m with
  | zero => intro r d hm _ hr; omega
  | succ m ih =>
    intro r d hm hd hr hc hn
    obtain ⟨n, e, R, h1, h2, h3, h4⟩ := hd.corner hr hc
    have h0 := h1.pos
    have i1 := h1.inOld
    simp only at i1
    obtain rfl : n = 1 := by
      apply Classical.byContradiction
      intro hne
      exact hn (by omega) (h1.run 1 (by omega))
    have hhit : Hit before after r r := h1.run 0 (by omega)
    by_cases he : e = 0
    · subst he
      by_cases hL : r + 1 = L
      · exact ⟨0, by omega, fun t ht => by rw [Nat.le_zero.1 ht]; exact hhit, fun h => absurd h (Nat.lt_irrefl 0)⟩
      · obtain ⟨n', e', R', g1, -⟩ := h3.corner (by omega) h4
        exact absurd (g1.run 0 g1.pos) (hn (by omega))
    · have hin := (h2.inside (by omega)).1
      simp only at hin
      obtain rfl : e = 1 := by
        have := h1.longest (r + 1 + 1) (r + 1 + 1) e (by simp only; omega) (by simp only; omega) (by simp only; omega)
          (by simp only; omega) h2.run
        omega
      obtain ⟨k, k1, k2, k3⟩ := ih (r + 1 + 1) (by omega) h3 (by omega) h4 (fun h => h2.stop (by simp only; omega) (by simp only; omega))
      refine ⟨k + 1, by omega, ?_, ?_⟩
      · intro t ht
        cases t with
        | zero => exact hhit
        | succ t =>
          have := k2 t (by omega)
          rwa [show r + 1 + 1 + 2 * t = r + 2 * (t + 1) by omega] at this
      · intro _ j i hj hi hj' hi' hrun
        have := h1.longest j i 2 hj hj' hi hi' hrun
        omega

omit [DecidableEq T] [Item T] [LawfulItem T] in
theorem CommonRun.inside {j i m : Nat} (h : CommonRun before after j i m) (hm : 0 < m) : j + m ≤ before.length ∧ i + m ≤ after.length := by
  obtain ⟨x, h1, h2⟩ := h (m - 1) (by omega)
  have l1 := (List.getElem?_eq_some_iff.1 h1).1
  have l2 := (List.getElem?_eq_some_iff.1 h2).1
  omega

omit [DecidableEq T] [Item T] [LawfulItem T] in
/-- The other way round: such a region is covered. -/
theorem alternate_decomp {L k r : Nat} (hL : L = r + 2 * k + 1)
    (hh : ∀ t, t ≤ k → Hit before after (r + 2 * t) (r + 2 * t))
    (ho : 0 < k → ∀ j i, r ≤ j → r ≤ i → ¬ CommonRun before after j i 2) :
    ∃ d, Decomp before after r L r L d ∧ ∀ j i, Covered d j i ↔ j = i ∧ r ≤ j ∧ j < L := by
  induction k generalizing r with
  | zero =>
    have hblock : IsBlock before after ⟨r, L⟩ ⟨r, L⟩ ⟨r, r, 1 + 0⟩ := by
      refine ⟨1, 0, ⟨by omega, ⟨Nat.le_refl _, by simp only; omega⟩, ⟨Nat.le_refl _, by simp only; omega⟩, ?_, ?_, ?_⟩,
        ⟨fun t ht => absurd ht (Nat.not_lt_zero t), fun h => absurd h (Nat.lt_irrefl 0), ?_⟩, rfl⟩
      · intro t ht
        obtain rfl : t = 0 := by omega
        exact hh 0 (Nat.le_refl _)
      · intro j i m h1 h2 _ _ _
        simp only at h1 h2
        omega
      · intro j i h1 _ h2 _ _
        exact ⟨h2, fun _ => h1⟩
      · intro h
        simp only at h
        omega
    refine ⟨_, .node _ hblock (.leaf (Nat.le_refl _) (Nat.le_refl _) (by intro j i h1 h2; simp only at h2; omega))
      (.leaf (by simp only; omega) (by simp only; omega) (by intro j i h1 h2; simp only at h1; omega)), ?_⟩
    intro j i
    simp only [Covered, List.nil_append, List.mem_singleton, exists_eq_left, covers_diagonal]
    omega
  | succ k ih =>
    obtain ⟨d, h1, h2⟩ := @ih (r + 2) (by omega) (fun t ht => by
      have := hh (t + 1) (by omega)
      rwa [show r + 2 * (t + 1) = r + 2 + 2 * t by omega] at this) (fun _ j i hj hi => ho (by omega) j i (by omega) (by omega))
    have ho := ho (by omega)
    have hblock : IsBlock before after ⟨r, L⟩ ⟨r, L⟩ ⟨r, r, 1 + 1⟩ := by
      refine ⟨1, 1, ⟨by omega, ⟨Nat.le_refl _, by simp only; omega⟩, ⟨Nat.le_refl _, by simp only; omega⟩, ?_, ?_, ?_⟩,
        ⟨?_, ?_, ?_⟩, rfl⟩
      · intro t ht
        obtain rfl : t = 0 := by omega
        exact hh 0 (Nat.zero_le _)
      · intro j i m g1 g2 g3 g4 hm
        apply Classical.byContradiction
        intro hlt
        exact ho j i g1 g3 fun t ht => hm t (by omega)
      · intro j i g1 _ g2 _ _
        exact ⟨g2, fun _ => g1⟩
      · intro t ht
        obtain rfl : t = 0 := by omega
        exact hh 1 (by omega)
      · intro _
        simp only
        omega
      · intro g1 g2 g3
        refine ho (r + 2) (r + 2) (by omega) (by omega) ?_
        intro t ht
        match t, ht with
        | 0, _ => exact hh 1 (by omega)
        | 1, _ => exact g3
    refine ⟨_, .node _ hblock (.leaf (Nat.le_refl _) (Nat.le_refl _) (by intro j i h1 h2; simp only at h2; omega)) h1, ?_⟩
    intro j i
    have := h2 j i
    simp only [Covered, List.nil_append, List.mem_cons, exists_eq_or_imp, covers_diagonal] at this ⊢
    rw [this]
    omega

theorem Overlooked.changes {n e k : Nat} (h : Overlooked before after n e k) (p : Profile) :
    changesOf p before after = .ok [.noChange ⟨0, 0, before.length⟩] := by
  obtain ⟨d, h1, h2⟩ := alternate_decomp (r := n + e) (k := k) rfl h.other h.apart
  have l1 := h.oldSize
  have l2 := h.newSize
  have ⟨s1, s2⟩ := h.some
  have hblock : IsBlock before after ⟨0, n + e + 2 * k + 1⟩ ⟨0, n + e + 2 * k + 1⟩ ⟨0, 0, n + e⟩ := by
    refine ⟨n, e, ⟨s1, ⟨Nat.le_refl _, by simp only; omega⟩, ⟨Nat.le_refl _, by simp only; omega⟩, h.first, ?_, ?_⟩, ⟨?_, ?_, ?_⟩, rfl⟩
    · intro j i m _ _ _ _ hm
      exact h.longest j i m hm
    · intro j i _ _ _ _ _
      exact ⟨Nat.zero_le _, fun _ => Nat.zero_le _⟩
    · simpa using h.next
    · intro _
      simp only
      omega
    · intro g1 g2 g3
      simp only [Nat.zero_add] at g1 g2 g3
      refine h.apart (by omega) (n + e) (n + e) (Nat.le_refl _) (Nat.le_refl _) ?_
      intro t ht
      match t, ht with
      | 0, _ => exact h.other 0 (Nat.zero_le _)
      | 1, _ => rwa [show n + e + 1 = n + 1 + e by omega]
  rw [C70_changes]
  refine ⟨?_, ?_, ?_, [] ++ ⟨0, 0, n + e⟩ :: d, ?_, ?_⟩
  · simp only [Tiles, Change.old, Change.new]
    and_intros <;> first | trivial | omega
  · simp only [List.mem_singleton, forall_eq, Change.Proper]
    omega
  · simp [Alternating]
  · rw [l1, l2]
    exact .node _ hblock (.leaf (Nat.le_refl _) (Nat.le_refl _) (by intro j i h1 h2; simp only at h2; omega)) (by simpa using h1)
  · intro j i
    have := h2 j i
    have e1 : Kept [.noChange ⟨0, 0, before.length⟩] j i ↔ (⟨0, 0, before.length⟩ : CommonSubsequence).Covers j i := by simp [Kept]
    simp only [e1, Covered, List.nil_append, List.mem_cons, exists_eq_or_imp, covers_diagonal] at this ⊢
    rw [this]
    omega

/-- Exactly: a diff is empty if the files are equal, or the differences are `Overlooked`. -/
theorem C16_exact (p : Profile) (before after : List T) (context : Nat) :
    diffClumps p before after context = .ok [] ↔ before = after ∨ ∃ n e k, Overlooked before after n e k := by
  constructor
  · intro h
    obtain ⟨changes, ccs, e1, e2, e3, e4, e5⟩ := diffClumps_spec p before after context
    have hnil : ccs = [] := List.map_eq_nil_iff.1 (Outcome.ok_inj (e5.symm.trans h))
    subst hnil
    have hreals : reals changes = [] := by rw [← e3.sameReals]; rfl
    obtain ⟨h1, h2, h3, d, hd, h4⟩ := (C70_changes p before after changes).1 e1
    cases changes with
    | nil =>
      obtain ⟨g1, g2⟩ := h1
      exact .inl (by rw [List.length_eq_zero_iff.1 g1.symm, List.length_eq_zero_iff.1 g2.symm])
    | cons c cs =>
      cases c with
      | insert | delete | replace => cases hreals
      | noChange c =>
        have hcs : cs = [] := by
          cases cs with
          | nil => rfl
          | cons c' cs =>
            have hr := h3.head_real c' (by simp)
            rw [reals_noChange, reals_real _ hr] at hreals
            cases hreals
        subst hcs
        obtain ⟨g1, g2, g3, g4, g5, g6⟩ := h1
        simp only [Change.old, Change.new] at g1 g2 g3 g4 g5 g6
        have hpos := h2 (.noChange c) (by simp)
        simp only [Change.Proper] at hpos
        have hlen : after.length = before.length := by omega
        have hcov : ∀ t, 0 ≤ t → t < before.length → Covered d t t := by
          intro t _ ht
          refine (h4 t t).1 ⟨c, by simp, t, ?_, ?_, ?_⟩ <;> omega
        rw [hlen] at hd
        obtain ⟨n, e, R, k1, k2, k3, k4⟩ := hd.corner (by omega) hcov
        have n0 := k1.pos
        have i1 := k1.inOld
        simp only [Nat.zero_add] at i1 k2 k3 k4
        have hlongest : ∀ j i m, CommonRun before after j i m → m ≤ n := by
          intro j i m hm
          by_cases hm0 : m = 0
          · omega
          · have := hm.inside (by omega)
            exact k1.longest j i m (Nat.zero_le _) this.1 (Nat.zero_le _) (by rw [← hlen]; exact this.2) hm
        by_cases he : e = 0
        · left
          subst he
          have hn : n = before.length := by
            apply Classical.byContradiction
            intro hne
            obtain ⟨n', e', R', f1, -⟩ := k3.corner (by omega) k4
            have := hlongest 0 0 (n + 1) (by
              intro t ht
              by_cases htn : t < n
              · exact k1.run t htn
              · have := f1.run 0 f1.pos
                rwa [show t = n by omega, Nat.zero_add])
            omega
          apply List.ext_getElem?
          intro t
          by_cases ht : t < n
          · obtain ⟨x, x1, x2⟩ := k1.run t ht
            rw [Nat.zero_add] at x1 x2
            rw [x1, x2]
          · rw [List.getElem?_eq_none (by omega), List.getElem?_eq_none (by omega)]
        · right
          have hin := (k2.inside (by omega)).1
          simp only at hin
          obtain ⟨k, m1, m2, m3⟩ := Decomp.alternate (before.length) (n + e) (by omega) k3 (by omega) k4 (fun hl => by
            have := k2.stop (by simp only; omega) (by simp only; omega)
            rwa [show n + e + 1 = n + 1 + e by omega])
          refine ⟨n, e, k, ⟨n0, by omega⟩, by omega, by omega, k1.run, hlongest, k2.run, m2, ?_⟩
          intro hk j i hj hi hrun
          have := hrun.inside (by omega)
          exact m3 hk j i hj hi this.1 (by omega) hrun
  · rintro (rfl | ⟨n, e, k, h⟩)
    · exact (clumpsOf_noReals p before before context (changesOf_self p before) (by split <;> simp [reals, Change.isNoChange])).2
    · exact (clumpsOf_noReals p before after context (h.changes p) rfl).2

omit [DecidableEq T] [Item T] [LawfulItem T] in
/-- Where the differing line of the first stretch is, and where the others are. -/
theorem Overlooked.differs {n e k : Nat} (h : Overlooked before after n e k) :
    ¬ Hit before after n n ∧ ∀ t, t < k → ¬ Hit before after (n + e + 2 * t + 1) (n + e + 2 * t + 1) := by
  refine ⟨fun hh => ?_, fun t ht hh => ?_⟩
  · have := h.longest 0 0 (n + 1) (by
      intro t ht
      by_cases htn : t < n
      · exact h.first t htn
      · rwa [show t = n by omega, Nat.zero_add])
    omega
  · refine h.apart (by omega) (n + e + 2 * t) (n + e + 2 * t) (by omega) (by omega) ?_
    intro s hs
    match s, hs with
    | 0, _ => exact h.other t (by omega)
    | 1, _ => exact hh

/-- In particular for files that differ in one line: the diff is empty exactly if the line is neither the first nor the last one, and
the lines before it are a longest common run. -/
theorem C16_one (p : Profile) (P S : List T) (x y : T) (hxy : x ≠ y) (context : Nat) :
    diffClumps p (P ++ x :: S) (P ++ y :: S) context = .ok [] ↔
      P ≠ [] ∧ S ≠ [] ∧ ∀ j i m, CommonRun (P ++ x :: S) (P ++ y :: S) j i m → m ≤ P.length := by
  have hP : ∀ t, t < P.length → Hit (P ++ x :: S) (P ++ y :: S) t t := by
    intro t ht
    refine ⟨P[t], ?_, ?_⟩ <;> rw [List.getElem?_append_left ht, List.getElem?_eq_getElem ht]
  have hS : ∀ t, t < S.length → Hit (P ++ x :: S) (P ++ y :: S) (P.length + 1 + t) (P.length + 1 + t) := by
    intro t ht
    refine ⟨S[t], ?_, ?_⟩ <;>
      rw [List.getElem?_append_right (by omega), show P.length + 1 + t - P.length = t + 1 by omega, List.getElem?_cons_succ,
        List.getElem?_eq_getElem ht]
  have hX : ¬ Hit (P ++ x :: S) (P ++ y :: S) P.length P.length := by
    rintro ⟨z, h1, h2⟩
    rw [List.getElem?_append_right (Nat.le_refl _), Nat.sub_self] at h1 h2
    exact hxy (Option.some.inj (h1.trans h2.symm))
  rw [C16_exact]
  constructor
  · rintro (h | ⟨n, e, k, h⟩)
    · exact absurd (List.cons.inj (List.append_cancel_left h)).1 hxy
    · have ⟨s1, s2⟩ := h.some
      have hl := h.oldSize
      simp only [List.length_append, List.length_cons] at hl
      have hn : n = P.length := by
        apply Classical.byContradiction
        intro hne
        rcases Nat.lt_or_ge n P.length with g | g
        · exact h.differs.1 (hP n g)
        · have := h.first P.length (by omega)
          rw [Nat.zero_add] at this
          exact hX this
      subst hn
      have hk : k = 0 := by
        apply Classical.byContradiction
        intro hk
        apply h.differs.2 0 (by omega)
        have := hS e (by omega)
        rwa [show P.length + 1 + e = P.length + e + 2 * 0 + 1 by omega] at this
      subst hk
      exact ⟨fun g => by simp [g] at s1, fun g => by simp [g] at hl; omega, h.longest⟩
  · rintro ⟨h1, h2, h3⟩
    have p1 := List.length_pos_iff.2 h1
    have p2 := List.length_pos_iff.2 h2
    refine .inr ⟨P.length, S.length, 0, ⟨p1, p2⟩, by simp; omega, by simp; omega, ?_, h3, ?_, ?_, ?_⟩
    · intro t ht
      rw [Nat.zero_add]
      exact hP t ht
    · intro t ht
      exact hS t ht
    · intro t ht
      have := hS (S.length - 1) (by omega)
      rwa [show P.length + 1 + (S.length - 1) = P.length + S.length + 2 * t by omega] at this
    · intro g
      omega

end

/-- Two cases: of the lines 2 and 4 one differs each; and the same with a run of two at the end, which is longer than what is before the
first difference. -/
example : ∃ n e k, Overlooked ([1, 2, 3, 4, 3] : List UInt8) [1, 9, 3, 8, 3] n e k :=
  ((C16_exact .debug _ _ 3).1 (by decide +kernel)).resolve_left (by decide)
example : ¬ ∃ n e k, Overlooked ([1, 2, 3, 4, 3, 5] : List UInt8) [1, 9, 3, 8, 3, 5] n e k := fun h =>
  absurd ((C16_exact .debug _ _ 3).2 (.inr h)) (by decide +kernel)
example (p : Profile) (context : Nat) (h : ∀ j i m, CommonRun [ln 'a', ln 'b', ln 'x', ln 'c'] [ln 'a', ln 'b', ln 'y', ln 'c'] j i m → m ≤ 2) :=
  (C16_one p [ln 'a', ln 'b'] [ln 'c'] (ln 'x') (ln 'y') (by decide) context).2 ⟨by decide, by decide, h⟩
example : ∀ j i m, CommonRun [ln 'a', ln 'b', ln 'x', ln 'c'] [ln 'a', ln 'b', ln 'y', ln 'c'] j i m → m ≤ 2 :=
  ((C16_one .debug [ln 'a', ln 'b'] [ln 'c'] (ln 'x') (ln 'y') (by decide) 3).1 (by decide +kernel)).2.2

end PwDiff
