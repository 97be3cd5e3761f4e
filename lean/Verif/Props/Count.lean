import Verif.Proofs.LeftOut
import Verif.Props.Clumps
import Verif.Props.Apply
import Verif.Proofs.UnifiedText

/-! # C99: which clumps there are, and how many -/

namespace PwDiff

theorem Leads.unique {ctx : Nat} {init lead lead' : List Change} (h : Leads ctx init lead) (h' : Leads ctx init lead') :
    lead = lead' := by
  rcases h with ⟨h1, rfl⟩ | ⟨i, c, h1, -, rfl⟩
  · rcases h' with ⟨-, rfl⟩ | ⟨i', c', h2, -, rfl⟩
    · rfl
    · rw [h1] at h2; simp at h2
  · rcases h' with ⟨h2, -⟩ | ⟨i', c', h2, -, rfl⟩
    · rw [h1] at h2; simp at h2
    · rw [h1] at h2
      obtain ⟨-, h3⟩ := List.append_inj' h2 rfl
      simp only [List.cons.injEq, Change.noChange.injEq, and_true] at h3
      rw [h3]

theorem Trails.unique {ctx : Nat} {tail trail trail' : List Change} (h : Trails ctx tail trail) (h' : Trails ctx tail trail') :
    trail = trail' := by
  rcases h with ⟨h1, rfl⟩ | ⟨c, i, h1, -, rfl⟩
  · rcases h' with ⟨-, rfl⟩ | ⟨c', i', h2, -, rfl⟩
    · rfl
    · rw [h1] at h2; simp at h2
  · rcases h' with ⟨h2, -⟩ | ⟨c', i', h2, -, rfl⟩
    · rw [h1] at h2; simp at h2
    · rw [h1] at h2
      simp only [List.cons.injEq, Change.noChange.injEq] at h2
      rw [h2.1]

/-- Changes after which a clump ends cannot go on inside another clump. -/
theorem Trails.not_inside {ctx : Nat} {x tail trail mid : List Change} (h : Trails ctx (x ++ tail) trail) (hx : x ≠ [])
    (hl : LastReal (mid ++ x)) (hmid : ∀ c, .noChange c ∈ mid ++ x → c.n < 2 * ctx) : False := by
  rcases h with ⟨h1, -⟩ | ⟨c, t, h1, h2, -⟩
  · simp [hx] at h1
  · cases x with
    | nil => exact hx rfl
    | cons d x =>
      simp only [List.cons_append, List.cons.injEq] at h1
      obtain ⟨rfl, rfl⟩ := h1
      cases x with
      | nil =>
        have := hl (.noChange c) (by simp)
        simp [Change.isNoChange] at this
      | cons e x =>
        have := hmid c (by simp)
        have := h2 (by simp)
        omega

/-- Two stretches with a real change in common are the same. -/
theorem IsStretch.eq_of_mem {ctx ie je : Nat} {changes l l' : List Change} {r : Change} (ht : Tiles 0 0 changes ie je)
    (hp : ∀ c ∈ changes, c.Proper) (h : IsStretch ctx changes l) (h' : IsStretch ctx changes l') (hr : r ∈ l.head? ∨ r ∈ l)
    (hr' : r ∈ l') (hreal : r.isNoChange = false) (hh : ∃ init mid tail lead trail, changes = init ++ mid ++ tail ∧ r ∈ mid.head?
      ∧ l = lead ++ mid ++ trail ∧ HeadReal mid ∧ LastReal mid ∧ (∀ c, .noChange c ∈ mid → c.n < 2 * ctx) ∧
      Leads ctx init lead ∧ Trails ctx tail trail) : l = l' := by
  obtain ⟨init, mid, tail, lead, trail, e, hrm, rfl, s4, s5, s6, s7, s8⟩ := hh
  obtain ⟨init', lead', mid', trail', tail', s1', s2', s3', s4', s5', s6', s7', s8'⟩ := h'
  have hmid' : r ∈ mid' := by
    rw [s2'] at hr'
    simp only [List.mem_append] at hr'
    rcases hr' with (h | h) | h
    · rcases s7' with ⟨-, rfl⟩ | ⟨_, _, -, -, rfl⟩
      · simp at h
      · rw [List.mem_singleton.1 h] at hreal; simp [Change.isNoChange] at hreal
    · exact h
    · rcases s8' with ⟨-, rfl⟩ | ⟨_, _, -, -, rfl⟩
      · simp at h
      · rw [List.mem_singleton.1 h] at hreal; simp [Change.isNoChange] at hreal
  obtain ⟨m1, m2, rfl⟩ := List.append_of_mem hmid'
  cases mid with
  | nil => simp at hrm
  | cons r0 mid =>
    simp only [List.head?_cons, Option.mem_def, Option.some.injEq] at hrm
    subst hrm
    have hpr := hp r0 (by rw [e]; simp)
    have e' : init ++ r0 :: (mid ++ tail) = (init' ++ m1) ++ r0 :: (m2 ++ tail') := by
      have : init ++ r0 :: (mid ++ tail) = changes := by rw [e]; simp
      rw [this, s1']; simp
    have ht' : Tiles 0 0 (init ++ r0 :: (mid ++ tail)) ie je := by
      have : init ++ r0 :: (mid ++ tail) = changes := by rw [e]; simp
      rw [this]; exact ht
    obtain ⟨e1, e2⟩ := ht'.place hpr e'
    have hm1 : m1 = [] := by
      rcases List.eq_nil_or_concat m1 with rfl | ⟨m1, d, rfl⟩
      · rfl
      · rw [List.concat_eq_append] at *
        rcases s7 with ⟨h1, -⟩ | ⟨i0, c, h1, h2, -⟩
        · rw [h1] at e1; simp at e1
        · rw [h1, ← List.append_assoc] at e1
          obtain ⟨e3, e4⟩ := List.append_inj' e1 rfl
          simp only [List.cons.injEq, and_true] at e4
          subst e4
          have hn := s6' c (by simp)
          have : i0 ≠ [] := by
            rintro rfl
            have : m1 = [] := by
              have := congrArg List.length e3
              simp at this
              exact List.eq_nil_of_length_eq_zero (by omega)
            subst this
            have := s4' (.noChange c) (by simp)
            simp [Change.isNoChange] at this
          have := h2 this
          omega
    subst hm1
    rw [List.append_nil] at e1
    subst e1
    have hlead := s7.unique s7'
    have hmm : mid = m2 := by
      rcases List.append_eq_append_iff.1 e2 with ⟨x, h1, h2⟩ | ⟨x, h1, h2⟩
      · cases x with
        | nil => simpa using h1.symm
        | cons d x =>
          exfalso
          rw [h2] at s8
          exact s8.not_inside (mid := r0 :: mid) (by simp) (by rw [List.cons_append, ← h1]; simpa using s5')
            (by rw [List.cons_append, ← h1]; simpa using s6')
      · cases x with
        | nil => simpa using h1
        | cons d x =>
          exfalso
          rw [h2] at s8'
          exact s8'.not_inside (mid := r0 :: m2) (by simp) (by rw [List.cons_append, ← h1]; exact s5)
            (by rw [List.cons_append, ← h1]; exact s6)
    subst hmm
    have htail : tail = tail' := List.append_cancel_left e2
    subst htail
    rw [s2', hlead, s8.unique s8']
    simp

section

variable {T : Type} [DecidableEq T] [Item T] [LawfulItem T]

/-- The clumps are exactly the stretches of the change list. -/
theorem C99_stretches (p : Profile) (before after : List T) (context : Nat) (changes : List Change) (ccs : List ChangeClump)
    (hch : changesOf p before after = .ok changes) (h : changeClumps context changes = .ok ccs) (l : List Change) :
    (∃ cc ∈ ccs, cc.changes = l) ↔ IsStretch context changes l := by
  obtain ⟨changes', ccs', e1, e2, e3, e4, e5⟩ := diffClumps_spec p before after context
  obtain rfl := Outcome.ok_inj (hch.symm.trans e1)
  obtain rfl := Outcome.ok_inj (h.symm.trans e2)
  obtain ⟨hp, halt⟩ := changes_proper hch
  have hst := changeClumps_stretch context changes halt ccs h
  constructor
  · rintro ⟨cc, hcc, rfl⟩
    exact hst cc hcc
  · intro hl
    obtain ⟨init, lead, mid, trail, tail, s1, s2, s3, s4, s5, s6, s7, s8⟩ := hl
    obtain ⟨r, mid0, rfl⟩ := List.exists_cons_of_ne_nil s3
    have hreal : r.isNoChange = false := s4 r (by simp)
    have hmem : r ∈ reals changes := mem_reals.2 ⟨by rw [s1]; simp, hreal⟩
    rw [← e3.sameReals] at hmem
    obtain ⟨cc, hcc, hrc⟩ := List.mem_flatMap.1 hmem
    refine ⟨cc, hcc, ?_⟩
    exact (IsStretch.eq_of_mem (changes_tiles p before after changes hch) hp
      ⟨init, lead, _, trail, tail, s1, s2, s3, s4, s5, s6, s7, s8⟩ (hst cc hcc) (.inr (by rw [s2]; simp)) (mem_reals.1 hrc).1 hreal
      ⟨init, _, tail, lead, trail, s1, by simp, s2, s4, s5, s6, s7, s8⟩).symm

example : IsStretch 1 [.delete ⟨0, 1⟩ 0, .noChange ⟨1, 0, 2⟩, .delete ⟨3, 4⟩ 2, .noChange ⟨4, 2, 1⟩] [.delete ⟨0, 1⟩ 0, .noChange ⟨1, 0, 1⟩] :=
  (C99_stretches .debug [ln 'a', ln 'b', ln 'c', ln 'd', ln 'e'] [ln 'b', ln 'c', ln 'e'] 1 _
    [⟨[.delete ⟨0, 1⟩ 0, .noChange ⟨1, 0, 1⟩]⟩, ⟨[.noChange ⟨2, 1, 1⟩, .delete ⟨3, 4⟩ 2, .noChange ⟨4, 2, 1⟩]⟩]
    (by decide +kernel) (by decide +kernel) _).1 ⟨_, List.mem_cons_self, rfl⟩

/-- The number of clumps is one more than the number of separating blocks. -/
theorem C99_count (p : Profile) (before after : List T) (context : Nat) (changes : List Change) (cs : List (DiffClump T))
    (hch : changesOf p before after = .ok changes) (h : diffClumps p before after context = .ok cs) :
    cs.length = clumpCount context changes := by
  obtain ⟨changes', ccs, e1, e2, e3, e4, e5⟩ := diffClumps_spec p before after context
  obtain rfl := Outcome.ok_inj (hch.symm.trans e1)
  obtain rfl := Outcome.ok_inj (e5.symm.trans h)
  rw [List.length_map, (changeClumps_stretches context changes (changes_proper hch).2 ccs e2).2]

example := C99_count .debug [ln 'a', ln 'b', ln 'c', ln 'd', ln 'e'] [ln 'b', ln 'c', ln 'e'] 1
  [.delete ⟨0, 1⟩ 0, .noChange ⟨1, 0, 2⟩, .delete ⟨3, 4⟩ 2, .noChange ⟨4, 2, 1⟩]
  [⟨(0, 1), ⟨0, [ln 'a', ln 'b']⟩, ⟨0, [ln 'b']⟩⟩, ⟨(1, 1), ⟨2, [ln 'c', ln 'd', ln 'e']⟩, ⟨1, [ln 'c', ln 'e']⟩⟩]
  (by decide +kernel) (by decide +kernel)

/-- More context never makes more clumps; with any context there are clumps if there is a change. -/
theorem C99_context (p : Profile) (before after : List T) (context context' : Nat) (hle : context ≤ context')
    (cs cs' : List (DiffClump T)) (h : diffClumps p before after context = .ok cs)
    (h' : diffClumps p before after context' = .ok cs') :
    cs'.length ≤ cs.length ∧ (cs = [] ↔ cs' = []) := by
  obtain ⟨changes, -, e1, -⟩ := diffClumps_spec p before after context
  rw [← List.length_eq_zero_iff, ← List.length_eq_zero_iff, C99_count p before after context changes cs e1 h,
    C99_count p before after context' changes cs' e1 h']
  unfold clumpCount
  split
  · simp
  · refine ⟨?_, by omega⟩
    have : changes.tail.dropLast.countP (separates context') ≤ changes.tail.dropLast.countP (separates context) := by
      apply List.countP_mono_left
      intro c _ hc
      cases c with
      | noChange c =>
        simp only [separates, decide_eq_true_eq] at hc ⊢
        omega
      | _ => exact hc
    omega

example := C99_context .debug [ln 'a', ln 'b', ln 'c', ln 'd', ln 'e'] [ln 'b', ln 'c', ln 'e'] 1 2 (by decide)
  [⟨(0, 1), ⟨0, [ln 'a', ln 'b']⟩, ⟨0, [ln 'b']⟩⟩, ⟨(1, 1), ⟨2, [ln 'c', ln 'd', ln 'e']⟩, ⟨1, [ln 'c', ln 'e']⟩⟩]
  [⟨(0, 1), ⟨0, [ln 'a', ln 'b', ln 'c', ln 'd', ln 'e']⟩, ⟨0, [ln 'b', ln 'c', ln 'e']⟩⟩]
  (by decide +kernel) (by decide +kernel)

end

/-- A unified diff has as many hunks as the library's own diff has clumps. -/
theorem C99_unified (p : Profile) (before after : List Str) (context : Nat) (changes : List Change)
    (cs : List UnifiedClumpText) (hch : changesOf p before after = .ok changes)
    (h : unifiedClumps p before after context = .ok cs) : cs.length = clumpCount context changes := by
  obtain ⟨changes', ccs, e1, e2, -, e3⟩ := unifiedClumps_eq p before after context
  obtain rfl := Outcome.ok_inj (hch.symm.trans e1)
  obtain rfl := Outcome.ok_inj (e3.symm.trans h)
  rw [List.length_map, (changeClumps_stretches context changes (changes_proper hch).2 ccs e2).2]

/-- Two deletions two lines apart: two clumps with one line of context, one with two. -/
example : changesOf .debug [ln 'a', ln 'b', ln 'c', ln 'd', ln 'e'] [ln 'b', ln 'c', ln 'e'] =
    .ok [.delete ⟨0, 1⟩ 0, .noChange ⟨1, 0, 2⟩, .delete ⟨3, 4⟩ 2, .noChange ⟨4, 2, 1⟩] := by decide +kernel
example : clumpCount 1 [.delete ⟨0, 1⟩ 0, .noChange ⟨1, 0, 2⟩, .delete ⟨3, 4⟩ 2, .noChange ⟨4, 2, 1⟩] = 2 := by decide
example : clumpCount 2 [.delete ⟨0, 1⟩ 0, .noChange ⟨1, 0, 2⟩, .delete ⟨3, 4⟩ 2, .noChange ⟨4, 2, 1⟩] = 1 := by decide
example : (changeClumps 1 [.delete ⟨0, 1⟩ 0, .noChange ⟨1, 0, 2⟩, .delete ⟨3, 4⟩ 2, .noChange ⟨4, 2, 1⟩]) =
    .ok [⟨[.delete ⟨0, 1⟩ 0, .noChange ⟨1, 0, 1⟩]⟩, ⟨[.noChange ⟨2, 1, 1⟩, .delete ⟨3, 4⟩ 2, .noChange ⟨4, 2, 1⟩]⟩] := by decide +kernel

end PwDiff
