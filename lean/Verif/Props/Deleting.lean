import Verif.Props.Caution

/-! # C134: deleting and inserting lines -/

namespace PwDiff

section

variable {T : Type}

theorem sublist_index {after before : List T} (h : after.Sublist before) :
    ∃ f : Nat → Nat, (∀ i k, i < k → f i < f k) ∧ ∀ i, after[i]? = before[f i]? := by
  induction h with
  | slnil => exact ⟨id, fun _ _ h => h, fun _ => rfl⟩
  | cons a h ih =>
    obtain ⟨f, h1, h2⟩ := ih
    exact ⟨fun i => f i + 1, fun i k h => Nat.succ_lt_succ (h1 i k h), fun i => by rw [List.getElem?_cons_succ, h2]⟩
  | cons_cons a h ih =>
    obtain ⟨f, h1, h2⟩ := ih
    refine ⟨fun i => match i with | 0 => 0 | i + 1 => f i + 1, ?_, ?_⟩
    · intro i k h
      cases i <;> cases k <;> simp only
      · omega
      · omega
      · omega
      · rename_i i k
        have := h1 i k (by omega)
        omega
    · intro i
      cases i with
      | zero => rfl
      | succ i => rw [List.getElem?_cons_succ, h2]; rfl

theorem deleted_hits {before after : List T} (hs : after.Sublist before) (hn : before.Nodup) :
    InOrder before after ∧ NoIsland before after ∧ ∀ i < after.length, ∃ j, Hit before after j i := by
  obtain ⟨f, h1, h2⟩ := sublist_index hs
  have hh := hit_of_index hn f h2
  refine ⟨?_, ?_, ?_⟩
  · intro j i j' i' a b
    rw [hh] at a b
    rw [a.1, b.1]
    constructor
    · intro h
      apply Classical.byContradiction
      intro hne
      rcases Nat.lt_or_ge i' i with h3 | h3
      · have := h1 _ _ h3; omega
      · rw [show i = i' by omega] at h; omega
    · exact h1 _ _
  · intro j i a b
    rw [hh] at a b ⊢
    have := h1 i (i + 1) (by omega)
    have := h1 (i + 1) (i + 2) (by omega)
    omega
  · intro i hi
    refine ⟨f i, (hh _ _).2 ⟨rfl, ?_⟩⟩
    have := h2 i
    rw [List.getElem?_eq_getElem hi] at this
    exact (List.getElem?_eq_some_iff.1 this.symm).1

variable [DecidableEq T] [Item T] [LawfulItem T]

/-- In a file without repeated lines any lines are deleted. Then the diff records deletions only, and they are the right ones. -/
theorem C134_deleted (p : Profile) (before after : List T) (hs : after.Sublist before) (hn : before.Nodup) :
    ∃ changes, changesOf p before after = .ok changes ∧
      (∀ c ∈ changes, (∃ d, c = .noChange d) ∨ ∃ r s, c = .delete r s) ∧ replay before after changes = after := by
  obtain ⟨h1, h2, h3⟩ := deleted_hits hs hn
  obtain ⟨changes, hc, hk⟩ := C71_minimal p before after h1 h2
  obtain ⟨ht, hp, -⟩ := (C70_changes p before after changes).1 hc
  refine ⟨changes, hc, ?_, (C14_noIsland_partial p before after changes h2 hc).2⟩
  have none : ∀ c ∈ changes, c.isNoChange = false → ¬ c.new.start < c.new.fin := by
    intro c hcm hcn hlt
    obtain ⟨a, b, e⟩ := List.append_of_mem hcm
    have hle : c.new.fin ≤ after.length := by rw [e] at ht; exact ht.at.2.2.2.le.2
    obtain ⟨j, hj⟩ := h3 c.new.start (by omega)
    obtain ⟨d, hd, t, t1, t2, t3⟩ := (hk _ _).2 hj
    obtain ⟨a', b', e'⟩ := List.append_of_mem hd
    rw [e] at ht e'
    have := (ht.unique e' (.inl ⟨c.new.start, by omega, hlt, show d.a ≤ _ by omega, show _ < d.a + d.n by omega⟩)).2.1
    rw [this] at hcn
    cases hcn
  intro c hcm
  have hpr := hp c hcm
  have := none c hcm
  cases c with
  | noChange d => exact .inl ⟨d, rfl⟩
  | delete r s => exact .inr ⟨r, s, rfl⟩
  | insert s r => exact absurd hpr (this rfl)
  | replace r s => exact absurd hpr.2 (this rfl)

omit [DecidableEq T] [Item T] [LawfulItem T] in
theorem hit_swap {before after : List T} {j i : Nat} : Hit before after j i ↔ Hit after before i j :=
  ⟨fun ⟨x, a, b⟩ => ⟨x, b, a⟩, fun ⟨x, a, b⟩ => ⟨x, b, a⟩⟩

/-- Lines are inserted anywhere; the new file has no repeated lines. Then the diff records insertions only, and they are the right
ones. -/
theorem C134_inserted (p : Profile) (before after : List T) (hs : before.Sublist after) (hn : after.Nodup) :
    ∃ changes, changesOf p before after = .ok changes ∧
      (∀ c ∈ changes, (∃ d, c = .noChange d) ∨ ∃ s r, c = .insert s r) ∧ replay before after changes = after := by
  obtain ⟨h1, h2, h3⟩ := deleted_hits hs hn
  have h1' : InOrder before after := fun j i j' i' a b => (h1 i j i' j' (hit_swap.1 a) (hit_swap.1 b)).symm
  have h2' : NoIsland before after := fun j i a b => hit_swap.1 (h2 i j (hit_swap.1 a) (hit_swap.1 b))
  obtain ⟨changes, hc, hk⟩ := C71_minimal p before after h1' h2'
  obtain ⟨ht, hp, -⟩ := (C70_changes p before after changes).1 hc
  refine ⟨changes, hc, ?_, (C14_noIsland_partial p before after changes h2' hc).2⟩
  have none : ∀ c ∈ changes, c.isNoChange = false → ¬ c.old.start < c.old.fin := by
    intro c hcm hcn hlt
    obtain ⟨a, b, e⟩ := List.append_of_mem hcm
    have hle : c.old.fin ≤ before.length := by rw [e] at ht; exact ht.at.2.2.2.le.1
    obtain ⟨j, hj⟩ := h3 c.old.start (by omega)
    obtain ⟨d, hd, t, t1, t2, t3⟩ := (hk _ _).2 (hit_swap.1 hj)
    obtain ⟨a', b', e'⟩ := List.append_of_mem hd
    rw [e] at ht e'
    have := (ht.unique e' (.inr ⟨c.old.start, by omega, hlt, show d.b ≤ _ by omega, show _ < d.b + d.n by omega⟩)).2.1
    rw [this] at hcn
    cases hcn
  intro c hcm
  have hpr := hp c hcm
  have := none c hcm
  cases c with
  | noChange d => exact .inl ⟨d, rfl⟩
  | delete r s => exact absurd hpr (this rfl)
  | insert s r => exact .inr ⟨s, r, rfl⟩
  | replace r s => exact absurd hpr.1 (this rfl)

example := C134_deleted .debug ([1, 2, 3, 4, 5] : List UInt8) [1, 3, 5] (by decide) (by decide)
example := C134_inserted .debug ([1, 3, 5] : List UInt8) [1, 2, 3, 4, 5] (by decide) (by decide)

/-! ## Among equal lines -/

omit [Item T] [LawfulItem T] [DecidableEq T] in
theorem blank_before (b x : T) (m k j : Nat) (hm : j < m + 1 + k) (hj : j ≠ m) :
    (List.replicate m b ++ [x] ++ List.replicate k b)[j]? = some b := by
  simp only [List.getElem?_append, List.length_append, List.length_replicate, List.length_singleton, List.getElem?_replicate]
  split
  · split
    · simp [*]
    · omega
  · rw [if_pos (by omega)]

omit [DecidableEq T] [Item T] [LawfulItem T] in
theorem blank_line (b x : T) (m k : Nat) : (List.replicate m b ++ [x] ++ List.replicate k b)[m]? = some x := by
  simp

omit [DecidableEq T] [Item T] [LawfulItem T] in
theorem blank_hits (b x : T) (hne : x ≠ b) (m k j i : Nat) :
    Hit (List.replicate m b ++ [x] ++ List.replicate k b) (List.replicate (m + k) b) j i ↔
      j < m + 1 + k ∧ j ≠ m ∧ i < m + k := by
  constructor
  · rintro ⟨y, h1, h2⟩
    have hj := (List.getElem?_eq_some_iff.1 h1).1
    simp only [List.length_append, List.length_replicate, List.length_singleton] at hj
    rw [List.getElem?_replicate] at h2
    split at h2
    · next hi =>
      refine ⟨hj, ?_, hi⟩
      rintro rfl
      rw [blank_line] at h1
      cases h1
      cases h2
      exact hne rfl
    · cases h2
  · rintro ⟨h1, h2, h3⟩
    exact ⟨b, blank_before b x m k j h1 h2, by rw [List.getElem?_replicate, if_pos h3]⟩

/-- A line that stands after `m` and before `k` equal lines is deleted, `m ≥ k ≥ 2`. Then what is recorded is the deletion of the last
line, and the line itself is taken as unchanged. -/
theorem C134_among (p : Profile) (b x : T) (hne : x ≠ b) (m k : Nat) (hk : 2 ≤ k) (hmk : k ≤ m) :
    changesOf p (List.replicate m b ++ [x] ++ List.replicate k b) (List.replicate (m + k) b) =
      .ok [.noChange ⟨0, 0, m + k⟩, .delete ⟨m + k, m + k + 1⟩ (m + k)] := by
  have hit := blank_hits b x hne m k
  have l1 : (List.replicate m b ++ [x] ++ List.replicate k b).length = m + 1 + k := by simp; omega
  have l2 : (List.replicate (m + k) b).length = m + k := by simp
  generalize (List.replicate m b ++ [x] ++ List.replicate k b) = before at *
  generalize (List.replicate (m + k) b) = after at *
  have hd : Decomp before after 0 before.length 0 after.length ([] ++ ⟨0, 0, m + k - 1⟩ :: ([] ++ ⟨m + k - 1, m + k - 1, 1⟩ :: [])) := by
    refine .node ⟨0, 0, m + k - 1⟩ ⟨m, k - 1, ⟨by omega, ⟨Nat.le_refl _, ?_⟩, ⟨Nat.le_refl _, ?_⟩, ?_, ?_, ?_⟩, ⟨?_, ?_, ?_⟩, ?_⟩ ?_
      (.node ⟨m + k - 1, m + k - 1, 1⟩ ⟨1, 0, ⟨by omega, ⟨?_, ?_⟩, ⟨?_, ?_⟩, ?_, ?_, ?_⟩, ⟨?_, ?_, ?_⟩, rfl⟩ ?_ ?_)
    · simp only; omega
    · simp only; omega
    · intro t ht; rw [hit]; simp only; omega
    · intro j i n h1 h2 h3 h4 hr
      simp only at h1 h2 h3 h4
      apply Classical.byContradiction
      intro hlt
      have := hr 0 (by omega)
      rw [hit] at this
      by_cases hj : j < m
      · have := hr (m - j) (by omega)
        rw [hit] at this
        omega
      · omega
    · intro j i _ _ _ _ _
      exact ⟨Nat.zero_le _, fun _ => Nat.zero_le _⟩
    · intro t ht; rw [hit]; simp only; omega
    · simp only; omega
    · simp only; omega
    · simp only; omega
    · exact .leaf (Nat.le_refl _) (Nat.le_refl _) (fun j i _ h2 => by simp only at h2; omega)
    · simp only; omega
    · simp only; omega
    · simp only; omega
    · simp only; omega
    · intro t ht; rw [hit]; simp only; omega
    · intro j i n h1 h2 h3 h4 hr
      simp only at h1 h2 h3 h4
      omega
    · intro j i h1 h2 h3 h4 hr
      simp only at h1 h2 h3 h4 ⊢
      omega
    · intro t ht; omega
    · intro h; omega
    · simp only; omega
    · exact .leaf (by simp only; omega) (by simp only; omega) (fun j i h1 h2 => by simp only at h1 h2; omega)
    · exact .leaf (by simp only; omega) (by simp only; omega) (fun j i _ _ h3 h4 => by simp only at h3 h4; omega)
  refine (C70_changes p _ _ _).2 ⟨?_, ?_, ?_, _, hd, ?_⟩
  · simp only [Tiles, Change.old, Change.new, true_and, and_true, l1, l2]; omega
  · intro c hc
    simp only [List.mem_cons, List.not_mem_nil, or_false] at hc
    rcases hc with rfl | rfl
    · show 0 < m + k; omega
    · show m + k < m + k + 1; omega
  · simp [Alternating, Change.isNoChange]
  · intro j i
    simp only [Kept, Covered, List.mem_cons, List.nil_append, List.not_mem_nil, or_false, CommonSubsequence.Covers]
    constructor
    · rintro ⟨c, h | h, t, t1, t2, t3⟩
      · cases h
        simp only at t1 t2 t3
        by_cases ht : t < m + k - 1
        · exact ⟨_, .inl rfl, t, ht, by simp only; omega, by simp only; omega⟩
        · exact ⟨_, .inr rfl, 0, by simp only; omega, by simp only; omega, by simp only; omega⟩
      · cases h
    · rintro ⟨c, rfl | rfl, t, t1, t2, t3⟩ <;> simp only at t1 t2 t3 <;>
        exact ⟨_, .inl rfl, j, by simp only; omega, by simp only; omega, by simp only; omega⟩

theorem blank_leftOut (m k context j i : Nat) :
    LeftOut context [.noChange ⟨0, 0, m + k⟩, .delete ⟨m + k, m + k + 1⟩ (m + k)] j i ↔ j = i ∧ i + context < m + k := by
  constructor
  · rintro ⟨pre, c, post, t, e, t1, t2, t3, -, t4⟩
    cases pre with
    | nil =>
      simp only [List.nil_append, List.cons.injEq, Change.noChange.injEq] at e
      obtain ⟨rfl, rfl⟩ := e
      have := t4 (by simp)
      simp only at *
      omega
    | cons d pre =>
      simp only [List.cons_append, List.cons.injEq] at e
      cases pre with
      | nil => simp at e
      | cons _ pre => simp at e
  · rintro ⟨rfl, h⟩
    exact ⟨[], ⟨0, 0, m + k⟩, _, j, rfl, by simp only; omega, by simp only; omega, by simp only; omega, by simp,
      fun _ => by simp only; omega⟩

/-- In all other cases no wrong pair is taken as unchanged. -/
theorem blank_right (p : Profile) (b x : T) (hne : x ≠ b) (m k : Nat) (h : k < 2 ∨ m < k) (changes : List Change)
    (hc : changesOf p (List.replicate m b ++ [x] ++ List.replicate k b) (List.replicate (m + k) b) = .ok changes) (j i : Nat)
    (hk : Kept changes j i) : Hit (List.replicate m b ++ [x] ++ List.replicate k b) (List.replicate (m + k) b) j i := by
  obtain ⟨-, -, -, d, hd, hkd⟩ := (C70_changes p _ _ changes).1 hc
  obtain ⟨c, hcm, t, t1, rfl, rfl⟩ := (hkd j i).1 hk
  have hit := blank_hits b x hne m k
  have l1 : (List.replicate m b ++ [x] ++ List.replicate k b).length = m + 1 + k := by simp; omega
  have l2 : (List.replicate (m + k) b).length = m + k := by simp
  generalize (List.replicate m b ++ [x] ++ List.replicate k b) = before at *
  generalize (List.replicate (m + k) b) = after at *
  by_cases hkk : m < k
  · have hd' : Decomp before after 0 before.length 0 after.length ([] ++ ⟨m + 1, 0, k⟩ :: []) := by
      refine .node ⟨m + 1, 0, k⟩ ⟨k, 0, ⟨by omega, ⟨Nat.zero_le _, ?_⟩, ⟨Nat.le_refl _, ?_⟩, ?_, ?_, ?_⟩, ⟨?_, ?_, ?_⟩, rfl⟩ ?_ ?_
      · simp only; omega
      · simp only; omega
      · intro t ht; rw [hit]; simp only; omega
      · intro j i n h1 h2 h3 h4 hr
        simp only at h1 h2 h3 h4
        apply Classical.byContradiction
        intro hlt
        have := hr 0 (by omega)
        rw [hit] at this
        by_cases hj : j < m
        · have := hr (m - j) (by omega)
          rw [hit] at this
          omega
        · omega
      · intro j i h1 h2 h3 h4 hr
        simp only at h1 h2 h3 h4
        refine ⟨Nat.zero_le _, fun _ => ?_⟩
        have := hr 0 (by omega)
        rw [hit] at this
        by_cases hj : j < m
        · have := hr (m - j) (by omega)
          rw [hit] at this
          omega
        · simp only; omega
      · intro t ht; omega
      · intro h; omega
      · simp only; omega
      · exact .leaf (by simp only; omega) (Nat.le_refl _) (fun j i _ _ _ h => by simp only at h; omega)
      · exact .leaf (by simp only; omega) (by simp only; omega) (fun j i h1 h2 => by simp only at h1 h2; omega)
    obtain ⟨d0, -, hu⟩ := C70_blocks before after
    obtain rfl := (hu _ hd).trans (hu _ hd').symm
    simp only [List.nil_append, List.mem_singleton] at hcm
    subst hcm
    rw [hit]
    simp only at t1 ⊢
    omega
  · exact hd.true_of_run 0 0 m (Nat.le_refl _) (by omega) (Nat.le_refl _) (by omega)
      (fun t ht => by rw [hit]; omega) (by omega) c hcm t t1

/-- What becomes of a line among equal lines that is to be deleted, `m` before it and `k` after it: the patch deletes it, unless there
are at least two lines after it and no fewer before it, and the patch has less than `k` lines of context. Then the line stays, and one
of the equal lines is deleted instead. -/
theorem C134_exact (p q : Profile) (b x : T) (hne : x ≠ b) (m k context : Nat) (hctx : context ≤ 255) (hsz : m + 1 + k ≤ maxLines)
    (cs : List (DiffClump T))
    (h : diffClumps p (List.replicate m b ++ [x] ++ List.replicate k b) (List.replicate (m + k) b) context = .ok cs) :
    (applyInto q cs (List.replicate m b ++ [x] ++ List.replicate k b) false).run = (.ok { clean := cs.length },
      bytesOf (if 2 ≤ k ∧ k ≤ m ∧ context < k then List.replicate m b ++ [x] ++ List.replicate (k - 1) b
        else List.replicate (m + k) b)) := by
  have l1 : (List.replicate m b ++ [x] ++ List.replicate k b).length = m + 1 + k := by simp; omega
  have l2 : (List.replicate (m + k) b).length = m + k := by simp
  have before_at : ∀ j, j < m + 1 + k → (List.replicate m b ++ [x] ++ List.replicate k b)[j]? = some (if j = m then x else b) := by
    intro j hj
    split
    · next e => rw [e]; exact blank_line b x m k
    · next e => exact blank_before b x m k j hj e
  obtain ⟨-, changes, hch, -⟩ := diffClumps_full hctx h
  obtain ⟨text, e, hlen, ht⟩ := C97_partial p q _ _ context hctx (by omega) (by omega) changes cs hch h
  rw [e]
  have hlen' : text.length = m + k := by omega
  congr 2
  apply List.ext_getElem?
  intro i
  by_cases hi : i < m + k
  · have after_at : (List.replicate (m + k) b)[i]? = some b := by rw [List.getElem?_replicate, if_pos hi]
    by_cases hc : 2 ≤ k ∧ k ≤ m
    · have hch' := C134_among p b x hne m k hc.1 hc.2
      obtain rfl := Outcome.ok_inj (hch.symm.trans hch')
      have := ht i
      by_cases hl : i + context < m + k
      · rw [this.1 i ((blank_leftOut m k context i i).2 ⟨rfl, hl⟩), before_at i (by omega)]
        by_cases hcx : context < k
        · rw [if_pos (show 2 ≤ k ∧ k ≤ m ∧ context < k from ⟨hc.1, hc.2, hcx⟩)]
          split
          · next e => rw [e]; exact (blank_line b x m (k - 1)).symm
          · next e => exact (blank_before b x m (k - 1) i (by omega) e).symm
        · rw [if_neg (show ¬i = m by omega), if_neg (show ¬(2 ≤ k ∧ k ≤ m ∧ context < k) by omega), after_at]
      · rw [this.2 (fun j hj => hl ((blank_leftOut m k context j i).1 hj).2), after_at]
        split
        · exact (blank_before b x m (k - 1) i (by omega) (by omega)).symm
        · rw [after_at]
    · rw [if_neg (by omega), after_at]
      by_cases hl : ∃ j, LeftOut context changes j i
      · obtain ⟨j, hj⟩ := hl
        have := (blank_hits b x hne m k j i).1 (blank_right p b x hne m k (by omega) changes hch j i hj.kept)
        rw [(ht i).1 j hj, before_at j (by omega), if_neg this.2.1]
      · rw [(ht i).2 (fun j hj => hl ⟨j, hj⟩), after_at]
  · rw [List.getElem?_eq_none (by omega), List.getElem?_eq_none]
    split
    · simp only [List.length_append, List.length_replicate, List.length_singleton]; omega
    · simp only [List.length_replicate]; omega

example := C134_among .debug (1 : UInt8) 2 (by decide) 3 2 (by decide) (by decide)
example := blank_right .debug (1 : UInt8) 2 (by decide) 2 3 (.inr (by decide)) _ (by decide +kernel : _ = Outcome.ok
  [Change.delete ⟨0, 3⟩ 0, .noChange ⟨3, 0, 3⟩, .insert 6 ⟨3, 5⟩])
example := C134_exact .debug .release (1 : UInt8) 2 (by decide) 3 2 1 (by decide) (by decide) _
  (by decide +kernel : diffClumps .debug (List.replicate 3 (1 : UInt8) ++ [2] ++ List.replicate 2 1) (List.replicate 5 1) 1 =
    .ok [⟨(1, 0), ⟨4, [1, 1]⟩, ⟨4, [1]⟩⟩])

end

/-- In the programs: lines are deleted anywhere in a file without repeated lines, or inserted to give such a file. The patch that
`pw_diff` prints carries the file over, and back again. -/
theorem C134_session (p q : Profile) (temp patch before after : Path) (context : Nat) (w : World) (s t : Str)
    (hw : Fresh w patch temp) (hctx : context ≤ 255) (hub : IsUtf8 before) (hua : IsUtf8 after)
    (hb : w.fs.contentAt before = some ⟨s.bytes, false⟩) (ha : w.fs.contentAt after = some ⟨t.bytes, false⟩)
    (hsb : (splitInclusive s).length ≤ maxLines) (hst : (splitInclusive t).length ≤ maxLines)
    (h : ((splitInclusive t).Sublist (splitInclusive s) ∧ (splitInclusive s).Nodup) ∨
      ((splitInclusive s).Sublist (splitInclusive t) ∧ (splitInclusive t).Nodup)) :
    ∃ patchContent, session p q temp patch before after context w =
      ((.exited 0, { w with stdout := patchContent }),
       (.exited 0, { w with fs := (w.fs.set (w.fs.entry patch) (some (.file patchContent))).set (w.fs.entry before) (some (.file t.bytes)) }),
       (.exited 0, { w with fs := (w.fs.set (w.fs.entry patch) (some (.file patchContent))).set (w.fs.entry before) (some (.file s.bytes)) })) := by
  refine C49_text_partial p q temp patch before after context w s t hw hctx hub hua hb ha hsb hst ?_
  rcases h with ⟨h1, h2⟩ | ⟨h1, h2⟩
  · exact (deleted_hits h1 h2).2.1
  · exact fun j i a b => hit_swap.1 ((deleted_hits h1 h2).2.1 i j (hit_swap.1 a) (hit_swap.1 b))

/-- What one may expect: lines can be deleted from any file by a patch. -/
def C134_statement : Prop :=
  ∀ (p q : Profile) (s t : Str) (context : Nat) (cs : List (DiffClump Str)), context ≤ 255 →
    (splitInclusive t).Sublist (splitInclusive s) → diffClumps p (splitInclusive s) (splitInclusive t) context = .ok cs →
    (applyInto q cs (splitInclusive s) false).run.2 = t.bytes

/-- It is not so, with three lines of context as well: a line among eight empty lines is not deleted. -/
theorem C134_refuted : ¬ C134_statement := by
  intro h
  have := h .debug .debug ['\n', '\n', '\n', '\n', 'x', '\n', '\n', '\n', '\n', '\n'] ['\n', '\n', '\n', '\n', '\n', '\n', '\n', '\n'] 3
    [⟨(3, 0), ⟨5, [['\n'], ['\n'], ['\n'], ['\n']]⟩, ⟨5, [['\n'], ['\n'], ['\n']]⟩⟩] (by decide) (by decide +kernel) (by decide +kernel)
  revert this
  decide +kernel

example (p q : Profile) (context : Nat) (hctx : context ≤ 255) : ∃ r,
    (session p q [84] [80] [65] [67] context ⟨FS.ofFiles [([65], Str.bytes (['a', '\n', 'b', '\n', 'c', '\n'])),
      ([67], Str.bytes (['a', '\n', 'c', '\n']))], [], []⟩).2.1 = (.exited 0, r) ∧
      r.fs.contentAt [65] = some ⟨Str.bytes (['a', '\n', 'c', '\n']), false⟩ := by
  obtain ⟨e1, e2, e3, e3', e4, e5, e6, e6', e7, e8⟩ := FS.ofFiles_two (Str.bytes (['a', '\n', 'b', '\n', 'c', '\n']))
    (Str.bytes (['a', '\n', 'c', '\n']))
  generalize FS.ofFiles [([65], Str.bytes (['a', '\n', 'b', '\n', 'c', '\n'])),
    ([67], Str.bytes (['a', '\n', 'c', '\n']))] = fs at *
  obtain ⟨_, e⟩ := C134_session p q [84] [80] [65] [67] context ⟨fs, [], []⟩ ['a', '\n', 'b', '\n', 'c', '\n']
    ['a', '\n', 'c', '\n']
    ⟨rfl, rfl, by simp [e3', e6], by simp [e3, e6'], by simp [e3, e3']⟩ hctx ⟨['A'], by decide⟩ ⟨['C'], by decide⟩ e7 e8
    (by decide +kernel) (by decide +kernel)
    (.inl ⟨by decide +kernel, by decide +kernel⟩)
  rw [e]
  exact ⟨_, rfl, FS.contentAt_of_file (by simp)⟩

end PwDiff
