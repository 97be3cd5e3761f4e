import Verif.Proofs.Clumps

/-! # Every clump is a stretch of the change list -/

namespace PwDiff

/-- One round of the iterator's loop, started with at least one change. -/
theorem clumpLoop_stretch (ctx : Nat) (iter acc : List Change) (hne : acc ≠ []) (halt : Alternating iter)
    (hp : (∃ c, acc.getLast? = some c ∧ c.isNoChange = false) ∨ (iter ≠ [] ∧ HeadReal iter)) :
    ∃ mid trail tail, iter = mid ++ tail ∧ (clumpLoop ctx iter acc).1 = acc ++ mid ++ trail ∧
      (∀ c, .noChange c ∈ mid → c.n < 2 * ctx) ∧ LastReal mid ∧
      ((tail = [] ∧ trail = [] ∧ (clumpLoop ctx iter acc).2 = ⟨[], none⟩) ∨
       (∃ c, tail = [.noChange c] ∧ trail = [.noChange ⟨c.b, c.a, min ctx c.n⟩] ∧ (clumpLoop ctx iter acc).2 = ⟨[], none⟩) ∨
       ∃ c tail', tail' ≠ [] ∧ tail = .noChange c :: tail' ∧ 2 * ctx ≤ c.n ∧ trail = [.noChange ⟨c.b, c.a, min ctx c.n⟩] ∧
         (clumpLoop ctx iter acc).2 = ⟨tail', some ⟨c.b + c.n - min ctx c.n, c.a + c.n - min ctx c.n, min ctx c.n⟩⟩) := by
  induction iter generalizing acc with
  | nil => exact ⟨[], [], [], rfl, by simp [clumpLoop], by simp, by simp [LastReal], .inl ⟨rfl, rfl, by simp [clumpLoop]⟩⟩
  | cons c rest ih =>
    cases hc : c.isNoChange with
    | false =>
      have step : clumpLoop ctx (c :: rest) acc = clumpLoop ctx rest (acc ++ [c]) := by
        cases c <;> simp_all [clumpLoop, Change.isNoChange]
      rw [step]
      obtain ⟨mid, trail, tail, e1, e2, e3, e4, e5⟩ := ih (acc ++ [c]) (by simp) halt.tail (.inl ⟨c, by simp, hc⟩)
      refine ⟨c :: mid, trail, tail, by rw [e1]; rfl, by rw [e2]; simp, ?_, ?_, e5⟩
      · intro x hx
        rcases List.mem_cons.1 hx with rfl | hx
        · simp [Change.isNoChange] at hc
        · exact e3 x hx
      · intro x hx
        cases mid with
        | nil => simp at hx; rw [← hx]; exact hc
        | cons d mid => rw [List.getLast?_cons_cons] at hx; exact e4 x hx
    | true =>
      cases c with
      | delete _ _ => simp [Change.isNoChange] at hc
      | insert _ _ => simp [Change.isNoChange] at hc
      | replace _ _ => simp [Change.isNoChange] at hc
      | noChange cs =>
        have hempty : acc.isEmpty = false := by cases acc <;> simp_all
        cases hr : rest with
        | nil =>
          have step : clumpLoop ctx [.noChange cs] acc = (acc ++ [.noChange (cs.endsTrimmed ctx)], ⟨[], none⟩) := by
            simp [clumpLoop, hempty]
          rw [step]
          refine ⟨[], _, [.noChange cs], rfl, ?_, by simp, by simp [LastReal], .inr (.inl ⟨cs, rfl, rfl, rfl⟩)⟩
          simp [CommonSubsequence.endsTrimmed, Nat.min_comm]
        | cons d rest' =>
          have hreal' : HeadReal rest := halt.headReal
          by_cases hsp : cs.n ≥ ctx * 2
          · have step : clumpLoop ctx (.noChange cs :: d :: rest') acc =
                (acc ++ [.noChange (cs.endsTrimmed ctx)], ⟨d :: rest', some (cs.startsTrimmed ctx)⟩) := by
              simp [clumpLoop, hempty, CommonSubsequence.split, hsp]
            rw [step]
            refine ⟨[], _, .noChange cs :: d :: rest', rfl, ?_, by simp, by simp [LastReal],
              .inr (.inr ⟨cs, d :: rest', by simp, rfl, by omega, rfl, ?_⟩)⟩
            · simp [CommonSubsequence.endsTrimmed, Nat.min_comm]
            · simp [CommonSubsequence.startsTrimmed, Nat.min_comm]
          · have step : clumpLoop ctx (.noChange cs :: d :: rest') acc = clumpLoop ctx (d :: rest') (acc ++ [.noChange cs]) := by
              simp [clumpLoop, hempty, CommonSubsequence.split, hsp]
            rw [step, ← hr]
            obtain ⟨mid, trail, tail, e1, e2, e3, e4, e5⟩ := ih (acc ++ [.noChange cs]) (by simp) halt.tail
              (.inr ⟨by rw [hr]; simp, hreal'⟩)
            refine ⟨.noChange cs :: mid, trail, tail, by rw [e1]; rfl, by rw [e2]; simp, ?_, ?_, e5⟩
            · intro x hx
              rcases List.mem_cons.1 hx with h | hx
              · obtain rfl := Change.noChange.inj h
                omega
              · exact e3 x hx
            · intro x hx
              cases mid with
              | nil =>
                rw [hr] at e1 hreal'
                rw [List.nil_append] at e1
                rcases e5 with ⟨rfl, -⟩ | ⟨c, rfl, -⟩ | ⟨c, t, -, rfl, -⟩
                · simp at e1
                · rw [e1] at hreal'
                  exact absurd (hreal' (.noChange c) (by simp)) (by simp [Change.isNoChange])
                · rw [e1] at hreal'
                  exact absurd (hreal' (.noChange c) (by simp)) (by simp [Change.isNoChange])
              | cons d mid => rw [List.getLast?_cons_cons] at hx; exact e4 x hx

theorem Alternating.append_right {xs ys : List Change} (h : Alternating (xs ++ ys)) : Alternating ys := by
  induction xs with
  | nil => exact h
  | cons x xs ih => exact ih (Alternating.tail h)

/-- Collecting clumps when the changes `init` are dealt with. -/
theorem clumpCollect_stretch (ctx : Nat) (fuel : Nat) (s : ClumpIter) (init lead iter : List Change) (out : List ChangeClump)
    (hs : clumpNext ctx s = (some ⟨(clumpLoop ctx iter lead).1⟩, (clumpLoop ctx iter lead).2))
    (hlead : Leads ctx init lead) (hne : iter ≠ []) (hreal : HeadReal iter) (halt : Alternating iter)
    (h : clumpCollect ctx fuel s = .ok out) :
    (∀ cc ∈ out, IsStretch ctx (init ++ iter) cc.changes) ∧ out.length = 1 + iter.dropLast.countP (separates ctx) := by
  induction fuel generalizing s init lead iter out with
  | zero => simp [clumpCollect] at h
  | succ fuel ih =>
    rw [clumpCollect, hs] at h
    simp only at h
    cases iter with
    | nil => exact absurd rfl hne
    | cons r rest =>
      have hr : r.isNoChange = false := hreal r (by simp)
      have step : clumpLoop ctx (r :: rest) lead = clumpLoop ctx rest (lead ++ [r]) := by
        cases r <;> simp_all [clumpLoop, Change.isNoChange]
      obtain ⟨mid, trail, tail, e1, e2, e3, e4, e5⟩ := clumpLoop_stretch ctx rest (lead ++ [r]) (by simp) halt.tail
        (.inl ⟨r, by simp, hr⟩)
      rw [step] at h
      have hlast : LastReal (r :: mid) := by
        intro x hx
        cases mid with
        | nil => simp at hx; rw [← hx]; exact hr
        | cons d mid => rw [List.getLast?_cons_cons] at hx; exact e4 x hx
      have hmid : ∀ c, .noChange c ∈ r :: mid → c.n < 2 * ctx := by
        intro x hx
        rcases List.mem_cons.1 hx with rfl | hx
        · simp [Change.isNoChange] at hr
        · exact e3 x hx
      have first : Trails ctx tail trail → IsStretch ctx (init ++ r :: rest) (clumpLoop ctx rest (lead ++ [r])).1 := by
        intro ht
        exact ⟨init, lead, r :: mid, trail, tail, by rw [e1]; simp, by rw [e2]; simp, by simp, by simpa [HeadReal] using hr,
          hlast, hmid, hlead, ht⟩
      generalize hs' : (clumpLoop ctx rest (lead ++ [r])).2 = s' at h e5
      have nextOk : ∃ o, clumpCollect ctx fuel s' = .ok o ∧ out = ⟨(clumpLoop ctx rest (lead ++ [r])).1⟩ :: o := by
        cases hcc : clumpCollect ctx fuel s' with
        | ok o => rw [hcc] at h; exact ⟨o, rfl, (Outcome.ok_inj h).symm⟩
        | ioErr => rw [hcc] at h; simp at h
        | panic => rw [hcc] at h; simp at h
        | diverge => rw [hcc] at h; simp at h
      obtain ⟨o, h1, rfl⟩ := nextOk
      have finished : s' = ⟨[], none⟩ → o = [] := by
        rintro rfl
        cases fuel with
        | zero => simp [clumpCollect] at h1
        | succ f =>
          rw [clumpCollect, clumpNext_done] at h1
          exact (Outcome.ok_inj h1).symm
      have hcount : (r :: mid).countP (separates ctx) = 0 := by
        rw [List.countP_eq_zero]
        intro x hx hsep
        cases x with
        | noChange c =>
          have := hmid c hx
          simp only [separates, decide_eq_true_eq] at hsep
          omega
        | _ => simp [separates] at hsep
      rcases e5 with ⟨rfl, rfl, e6⟩ | ⟨c, rfl, rfl, e6⟩ | ⟨c, tail', t1, rfl, t2, rfl, rfl⟩
      · rw [finished e6]
        refine ⟨?_, ?_⟩
        · intro cc hcc
          obtain rfl := List.mem_singleton.1 hcc
          exact first (.inl ⟨rfl, rfl⟩)
        · have h0 : (r :: rest).dropLast.countP (separates ctx) ≤ (r :: mid).countP (separates ctx) := by
            rw [e1, List.append_nil]
            exact (List.dropLast_sublist _).countP_le
          simp only [List.length_singleton]
          omega
      · rw [finished e6]
        refine ⟨?_, ?_⟩
        · intro cc hcc
          obtain rfl := List.mem_singleton.1 hcc
          exact first (.inr ⟨c, [], rfl, by simp, rfl⟩)
        · rw [e1, ← List.cons_append, List.dropLast_concat, hcount]
          rfl
      · have rec_ : (∀ cc ∈ o, IsStretch ctx (init ++ r :: rest) cc.changes) ∧
            o.length = 1 + tail'.dropLast.countP (separates ctx) := by
          have halt' : Alternating (.noChange c :: tail') := by
            have : Alternating (mid ++ .noChange c :: tail') := by rw [← e1]; exact halt.tail
            exact this.append_right
          have hreal' : HeadReal tail' := halt'.headReal
          have hne' : (clumpLoop ctx tail' [.noChange ⟨c.b + c.n - min ctx c.n, c.a + c.n - min ctx c.n, min ctx c.n⟩]).1.isEmpty
              = false := by
            obtain ⟨m, t, u, -, q2, -⟩ := clumpLoop_stretch ctx tail'
              [.noChange ⟨c.b + c.n - min ctx c.n, c.a + c.n - min ctx c.n, min ctx c.n⟩] (by simp) halt'.tail (.inr ⟨t1, hreal'⟩)
            rw [q2]; simp
          have := ih ⟨tail', some ⟨c.b + c.n - min ctx c.n, c.a + c.n - min ctx c.n, min ctx c.n⟩⟩
            (init ++ r :: mid ++ [.noChange c]) _ tail' o
            (by unfold clumpNext; simp [hne']) (.inr ⟨init ++ r :: mid, c, rfl, fun _ => t2, rfl⟩) t1 hreal' halt'.tail h1
          rw [e1]
          simpa using this
        refine ⟨?_, ?_⟩
        · intro cc hcc
          rcases List.mem_cons.1 hcc with rfl | hcc
          · exact first (.inr ⟨c, tail', rfl, fun _ => t2, rfl⟩)
          · exact rec_.1 cc hcc
        · rw [e1, ← List.cons_append, List.dropLast_append_of_ne_nil (by simp), List.countP_append, hcount,
            List.dropLast_cons_of_ne_nil t1, List.countP_cons_of_pos (by simpa [separates] using t2), List.length_cons, rec_.2]
          omega

/-- Every clump is a stretch of the change list, and there are as many as the separating blocks make. -/
theorem changeClumps_stretches (ctx : Nat) (changes : List Change) (halt : Alternating changes) (out : List ChangeClump)
    (h : changeClumps ctx changes = .ok out) :
    (∀ cc ∈ out, IsStretch ctx changes cc.changes) ∧ out.length = clumpCount ctx changes := by
  unfold changeClumps at h
  have none_case : ∀ (l : List Change), (clumpLoop ctx l []) = ([], ⟨[], none⟩) →
      clumpCollect ctx (l.length + 1) ⟨l, none⟩ = .ok [] := by
    intro l h
    rw [clumpCollect]
    simp [clumpNext, h]
  have next : ∀ (s : ClumpIter) (iter lead : List Change), iter ≠ [] → HeadReal iter → Alternating iter →
      clumpLoop ctx s.iter (match s.stash with | some x => [.noChange x] | none => []) = clumpLoop ctx iter lead →
      clumpNext ctx s = (some ⟨(clumpLoop ctx iter lead).1⟩, (clumpLoop ctx iter lead).2) := by
    intro s iter lead h1 h2 h3 h4
    cases iter with
    | nil => exact absurd rfl h1
    | cons r rest =>
      have hr : r.isNoChange = false := h2 r (by simp)
      have step : clumpLoop ctx (r :: rest) lead = clumpLoop ctx rest (lead ++ [r]) := by
        cases r <;> simp_all [clumpLoop, Change.isNoChange]
      obtain ⟨m, t, u, -, q2, -⟩ := clumpLoop_stretch ctx rest (lead ++ [r]) (by simp) h3.tail (.inl ⟨r, by simp, hr⟩)
      have hne' : (clumpLoop ctx (r :: rest) lead).1.isEmpty = false := by
        rw [step, q2]; simp
      unfold clumpNext
      obtain ⟨it, st⟩ := s
      cases st with
      | none =>
        simp only at h4 ⊢
        rw [h4, hne']; simp
      | some x =>
        simp only at h4 ⊢
        rw [h4, hne']; simp
  cases hch : changes with
  | nil =>
    subst hch
    rw [none_case [] (by simp [clumpLoop])] at h
    rw [← Outcome.ok_inj h]; simp [clumpCount, reals]
  | cons c rest =>
    rw [hch] at h halt
    cases hc : c.isNoChange with
    | false =>
      have hreal : HeadReal (c :: rest) := by simpa [HeadReal] using hc
      have := clumpCollect_stretch ctx _ ⟨c :: rest, none⟩ [] [] (c :: rest) out
        (next _ _ _ (by simp) hreal halt rfl) (.inl ⟨rfl, rfl⟩) (by simp) hreal halt h
      refine ⟨by simpa using this.1, ?_⟩
      have hr : (reals (c :: rest)).isEmpty = false := by simp [reals, hc]
      have hs : separates ctx c = false := by
        cases c with
        | noChange c => simp [Change.isNoChange] at hc
        | _ => rfl
      rw [this.2, clumpCount, hr]
      cases rest with
      | nil => rfl
      | cons d rest => simp [hs]
    | true =>
      cases c with
      | delete _ _ => simp [Change.isNoChange] at hc
      | insert _ _ => simp [Change.isNoChange] at hc
      | replace _ _ => simp [Change.isNoChange] at hc
      | noChange cs =>
        cases hr : rest with
        | nil =>
          subst hr
          rw [none_case _ (by simp [clumpLoop])] at h
          rw [← Outcome.ok_inj h]; simp [clumpCount, reals, Change.isNoChange]
        | cons d rest' =>
          have hrne : rest ≠ [] := by rw [hr]; simp
          rw [← hr]
          have := clumpCollect_stretch ctx _ ⟨.noChange cs :: rest, none⟩ [.noChange cs]
            [.noChange ⟨cs.b + cs.n - min ctx cs.n, cs.a + cs.n - min ctx cs.n, min ctx cs.n⟩] rest out
            (next _ _ _ hrne halt.headReal halt.tail (by simp [clumpLoop, hr, CommonSubsequence.startsTrimmed, Nat.min_comm]))
            (.inr ⟨[], cs, rfl, by simp, rfl⟩) hrne halt.headReal halt.tail h
          refine ⟨by simpa using this.1, ?_⟩
          have hd : d.isNoChange = false := halt.headReal d (by rw [hr]; simp)
          have hre : (reals (.noChange cs :: rest)).isEmpty = false := by
            rw [hr]
            cases d <;> simp_all [reals, Change.isNoChange]
          rw [this.2, clumpCount, hre]
          rfl

/-- Every clump is a stretch of the change list. -/
theorem changeClumps_stretch (ctx : Nat) (changes : List Change) (halt : Alternating changes) (out : List ChangeClump)
    (h : changeClumps ctx changes = .ok out) : ∀ cc ∈ out, IsStretch ctx changes cc.changes :=
  (changeClumps_stretches ctx changes halt out h).1

theorem changes_proper {T : Type} [DecidableEq T] [Item T] [LawfulItem T] {p : Profile} {before after : List T}
    {changes : List Change} (h : changesOf p before after = .ok changes) : (∀ c ∈ changes, c.Proper) ∧ Alternating changes := by
  obtain ⟨cs, h', hg, -⟩ := changesOf_spec p before after
  obtain rfl := Outcome.ok_inj (h'.symm.trans h)
  exact ⟨proper_gen before after cs 0 0 hg.ordered, (alternating_gen before after cs 0 0 hg.ordered hg.apart).1⟩

/-- A stretch with context does not start at the end of a file, unless the file is empty. -/
theorem IsStretch.starts_inside {ctx : Nat} {changes clump : List Change} {i j ie je m n : Nat} (hctx : 1 ≤ ctx)
    (h : IsStretch ctx changes clump) (hp : ∀ c ∈ changes, c.Proper) (ht : Tiles 0 0 changes m n) (hc : Tiles i j clump ie je) :
    (i = 0 ∧ j = 0) ∨ (i < ie ∧ j < je) := by
  obtain ⟨init, lead, mid, trail, tail, rfl, rfl, hne, -, -, -, hl, -⟩ := h
  rcases hl with ⟨rfl, rfl⟩ | ⟨init', c, rfl, -, rfl⟩
  · left
    cases mid with
    | nil => exact absurd rfl hne
    | cons r mid =>
      have h1 := ht.1
      have h2 := ht.2.1
      have h3 := hc.1
      have h4 := hc.2.1
      omega
  · right
    have hn : 0 < c.n := hp (.noChange c) (by simp)
    obtain ⟨h1, h2, -, -, h5⟩ := hc
    simp only [Change.old, Change.new] at h1 h2 h5
    have := h5.le
    omega

/-- The clumps of a diff with context do not start at the end of a file, unless the file is empty. -/
theorem diffClumps_starts {T : Type} [DecidableEq T] [Item T] [LawfulItem T] {p : Profile} {before after : List T} {ctx : Nat}
    (hctx : 1 ≤ ctx) {cs : List (DiffClump T)} (h : diffClumps p before after ctx = .ok cs) (c : DiffClump T) (hc : c ∈ cs) :
    (before ≠ [] → c.before.start < before.length) ∧ (after ≠ [] → c.after.start < after.length) := by
  obtain ⟨changes, ccs, e1, e2, e3, e4, e5⟩ := diffClumps_spec p before after ctx
  obtain rfl := Outcome.ok_inj (e5.symm.trans h)
  obtain ⟨cc, hcc, rfl⟩ := List.mem_map.1 hc
  obtain ⟨hp, halt⟩ := changes_proper e1
  have hs := changeClumps_stretch ctx changes halt ccs e2 cc hcc
  obtain ⟨i, j, ie, je, ht⟩ := e3.cover.mem cc hcc
  have hi := hs.starts_inside hctx hp (changes_tiles p before after changes e1) ht
  have hin := e4.inside.2.2 cc.ranges (List.mem_map_of_mem hcc)
  rw [ht.ranges (e3.each cc hcc).ne_nil] at hin
  simp only [toDiffClump]
  rw [ht.ranges (e3.each cc hcc).ne_nil]
  simp only at hin ⊢
  have hb : before ≠ [] → 0 < before.length := List.length_pos_iff.2
  have ha : after ≠ [] → 0 < after.length := List.length_pos_iff.2
  refine ⟨fun h0 => ?_, fun h0 => ?_⟩
  · have := hb h0; omega
  · have := ha h0; omega

end PwDiff
