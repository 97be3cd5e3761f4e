import Verif.Props.Independent
import Verif.Props.Joined
import Verif.Props.Changes
import Verif.Props.Clumps

namespace PwDiff

/-! ## No clump but the last one reaches the end -/

/-- The last change of every clump and the first change of the next one are parts of the same unchanged stretch, and the second
one ends after the first one. -/
def Linked : List ChangeClump → Prop
  | c :: c' :: ccs => (∃ head tail, c.changes.getLast? = some (.noChange head) ∧ c'.changes.head? = some (.noChange tail) ∧
      head.b + head.n < tail.b + tail.n ∧ head.a + head.n < tail.a + tail.n) ∧ Linked (c' :: ccs)
  | _ => True

theorem split_ends {c head tail : CommonSubsequence} {ctx : Nat} (hc : 0 < c.n) (h : c.split ctx = some (head, tail)) :
    head.b + head.n < tail.b + tail.n ∧ head.a + head.n < tail.a + tail.n := by
  unfold CommonSubsequence.split at h
  split at h
  · obtain ⟨rfl, rfl⟩ := Prod.mk.inj (Option.some.inj h)
    simp only [CommonSubsequence.endsTrimmed, CommonSubsequence.startsTrimmed]
    first
      | omega
      | (split <;> simp only <;> omega)
  · cases h

theorem clumpLoop_stash (ctx : Nat) (iter acc : List Change) (hp : ∀ c, .noChange c ∈ iter → 0 < c.n) :
    (∃ more, (clumpLoop ctx iter acc).1 = acc ++ more) ∧
    (∀ c, c ∈ (clumpLoop ctx iter acc).2.iter → c ∈ iter) ∧
    ((clumpLoop ctx iter acc).2 = ⟨[], none⟩ ∨
      ∃ head tail, (clumpLoop ctx iter acc).2.stash = some tail ∧ (clumpLoop ctx iter acc).1.getLast? = some (.noChange head) ∧
        head.b + head.n < tail.b + tail.n ∧ head.a + head.n < tail.a + tail.n) := by
  induction iter generalizing acc with
  | nil => exact ⟨⟨[], by simp [clumpLoop]⟩, by simp [clumpLoop], .inl rfl⟩
  | cons x iter ih =>
    have step : ∀ y, clumpLoop ctx (x :: iter) acc = clumpLoop ctx iter (acc ++ [y]) →
        (∃ more, (clumpLoop ctx (x :: iter) acc).1 = acc ++ more) ∧
        (∀ c, c ∈ (clumpLoop ctx (x :: iter) acc).2.iter → c ∈ x :: iter) ∧
        ((clumpLoop ctx (x :: iter) acc).2 = ⟨[], none⟩ ∨
          ∃ head tail, (clumpLoop ctx (x :: iter) acc).2.stash = some tail ∧
            (clumpLoop ctx (x :: iter) acc).1.getLast? = some (.noChange head) ∧
            head.b + head.n < tail.b + tail.n ∧ head.a + head.n < tail.a + tail.n) := by
      intro y e
      have := ih (acc ++ [y]) fun c hc => hp c (by simp [hc])
      rw [← e] at this
      obtain ⟨⟨more, h1⟩, h2, h3⟩ := this
      exact ⟨⟨y :: more, by rw [h1]; simp⟩, fun c hc => List.mem_cons_of_mem _ (h2 c hc), h3⟩
    cases x with
    | noChange c =>
      by_cases ha : acc.isEmpty
      · by_cases hi : iter.isEmpty
        · have : clumpLoop ctx (.noChange c :: iter) acc = clumpLoop ctx iter acc := by simp [clumpLoop, ha, hi]
          rw [this]
          obtain ⟨h1, h2, h3⟩ := ih acc fun c hc => hp c (by simp [hc])
          exact ⟨h1, fun c hc => List.mem_cons_of_mem _ (h2 c hc), h3⟩
        · exact step _ (by simp only [clumpLoop, ha, hi]; rfl)
      · by_cases hi : iter.isEmpty
        · have e : clumpLoop ctx (.noChange c :: iter) acc = (acc ++ [.noChange (c.endsTrimmed ctx)], ⟨iter, none⟩) := by
            simp [clumpLoop, ha, hi]
          rw [e]
          refine ⟨⟨_, rfl⟩, fun c hc => List.mem_cons_of_mem _ hc, .inl ?_⟩
          rw [List.isEmpty_iff.1 hi]
        · cases hs : c.split ctx with
          | none => exact step (.noChange c) (by simp only [clumpLoop, ha, hi, hs]; rfl)
          | some ht =>
            obtain ⟨head, tail⟩ := ht
            have e : clumpLoop ctx (.noChange c :: iter) acc = (acc ++ [.noChange head], ⟨iter, some tail⟩) := by
              simp only [clumpLoop, ha, hi, hs]; rfl
            rw [e]
            exact ⟨⟨_, rfl⟩, fun c hc => List.mem_cons_of_mem _ hc, .inr ⟨head, tail, rfl, by simp, split_ends (hp c (by simp)) hs⟩⟩
    | _ => exact step _ (by rw [clumpLoop]; intro c h; cases h)

theorem clumpCollect_linked (ctx fuel : Nat) (s : ClumpIter) (ccs : List ChangeClump) (hp : ∀ c, .noChange c ∈ s.iter → 0 < c.n)
    (h : clumpCollect ctx fuel s = .ok ccs) :
    Linked ccs ∧ ∀ tail, s.stash = some tail → ∀ c ∈ ccs.head?, c.changes.head? = some (.noChange tail) := by
  induction fuel generalizing s ccs with
  | zero => cases h
  | succ fuel ih =>
    have hn : ∃ initial, (∀ tail, s.stash = some tail → initial = [.noChange tail]) ∧ clumpNext ctx s =
        if (clumpLoop ctx s.iter initial).1.isEmpty then (none, (clumpLoop ctx s.iter initial).2)
        else (some ⟨(clumpLoop ctx s.iter initial).1⟩, (clumpLoop ctx s.iter initial).2) := by
      obtain ⟨iter, stash⟩ := s
      cases stash with
      | none => exact ⟨[], by simp, rfl⟩
      | some x => exact ⟨[.noChange x], by simp, rfl⟩
    obtain ⟨initial, hi, hn⟩ := hn
    rw [clumpCollect, hn] at h
    obtain ⟨⟨more, h1⟩, h2, h3⟩ := clumpLoop_stash ctx s.iter initial hp
    clear hn
    generalize clumpLoop ctx s.iter initial = r at h h1 h2 h3
    obtain ⟨changes, s'⟩ := r
    by_cases he : changes.isEmpty
    · simp only [he, if_true] at h
      rw [← Outcome.ok_inj h]
      exact ⟨trivial, by simp⟩
    · simp only [he] at h
      change (clumpCollect ctx fuel s' >>= fun cs => (Outcome.ok ((⟨changes⟩ : ChangeClump) :: cs) : Outcome (List ChangeClump))) = .ok ccs at h
      cases hc : clumpCollect ctx fuel s' with
      | ok cs =>
        rw [hc] at h
        rw [← Outcome.ok_inj (show Outcome.ok ((⟨changes⟩ : ChangeClump) :: cs) = .ok ccs from h)]
        obtain ⟨g1, g2⟩ := ih s' cs (fun c hc => hp c (h2 _ hc)) hc
        refine ⟨?_, ?_⟩
        · cases cs with
          | nil => trivial
          | cons c cs =>
            refine ⟨?_, g1⟩
            rcases h3 with h3 | ⟨head, tail, k1, k2, k3⟩
            · simp only at h3
              subst h3
              cases fuel with
              | zero => cases hc
              | succ fuel => rw [clumpCollect, clumpNext_done] at hc; cases hc
            · exact ⟨head, tail, k2, g2 tail k1 c rfl, k3⟩
        · intro tail ht c hcc
          simp only [List.head?_cons, Option.mem_def, Option.some.injEq] at hcc
          subst hcc
          simp only at h1 ⊢
          rw [h1, hi tail ht]
          rfl
      | _ => rw [hc] at h; cases h

theorem ClumpsCover.ends_lt {skip : CommonSubsequence → Prop} {i j ie je : Nat} {cs : List ChangeClump}
    (h : ClumpsCover skip i j cs ie je) (hne : ∀ c ∈ cs, c.changes ≠ []) (hl : Linked cs) :
    ∀ c ∈ cs.dropLast, c.ranges.1.fin < ie ∧ c.ranges.2.fin < je := by
  induction cs generalizing i j with
  | nil => simp
  | cons c cs ih =>
    cases cs with
    | nil => simp
    | cons c' cs =>
      obtain ⟨n, i', j', -, h2, h3⟩ := h
      obtain ⟨⟨head, tail, l1, l2, l3⟩, hl⟩ := hl
      intro x hx
      rw [List.dropLast_cons_cons, List.mem_cons] at hx
      rcases hx with rfl | hx
      · have e := h2.ranges (hne _ (by simp))
        have e1 := tiles_last h2 (hne _ (by simp))
        obtain ⟨n', i'', j'', -, g2, g3⟩ := h3
        cases hcc : c'.changes with
        | nil => exact absurd hcc (hne _ (by simp))
        | cons y ys =>
          rw [hcc, List.head?_cons] at l2
          obtain rfl := Option.some.inj l2
          rw [hcc] at g2
          have k := g2.cons_head.2.le
          have k3 := g3.le
          rw [e]
          rw [List.getLast?_eq_some_iff] at l1
          obtain ⟨init, hinit⟩ := l1
          simp only [ChangeClump.ends, hinit, List.getLast?_append, List.getLast?_singleton, Option.some_or,
            CommonSubsequence.beforeEnd, CommonSubsequence.afterEnd, Prod.mk.injEq] at e1
          simp only [Change.old, Change.new] at k
          simp only
          omega
      · exact ih h3 (fun c hc => hne c (List.mem_cons_of_mem _ hc)) hl x hx

section

variable {T : Type} [Item T] [DecidableEq T] [LawfulItem T]

/-- No clump of a diff but the last one reaches the end of one of the files. -/
theorem C20_inner {p : Profile} {before after : List T} {context : Nat} {cs : List (DiffClump T)}
    (h : diffClumps p before after context = .ok cs) : ∀ c ∈ cs.dropLast,
      c.before.start + c.before.items.length < before.length ∧ c.after.start + c.after.items.length < after.length := by
  obtain ⟨changes, ccs, e1, e2, e3, e4, e5⟩ := diffClumps_spec p before after context
  obtain rfl := Outcome.ok_inj (e5.symm.trans h)
  have hp := (C13_normal p before after changes e1).1
  have hl := (clumpCollect_linked context _ _ ccs (fun c hc => show (Change.noChange c).Proper from hp _ hc) e2).1
  have hlt := e3.cover.ends_lt (fun c hc => (e3.each c hc).ne_nil) hl
  intro c hc
  rw [← List.map_dropLast] at hc
  obtain ⟨cc, hcc, rfl⟩ := List.mem_map.1 hc
  have hin := e4.inside.2.2 cc.ranges (List.mem_map_of_mem (List.dropLast_subset _ hcc))
  have := hlt cc hcc
  simp only [toDiffClump]
  rw [length_cut _ _ _ hin.2.1, length_cut _ _ _ hin.2.2.2]
  omega

end

section

variable {T : Type}

theorem weight_append (xs ys : List (DiffClump T)) : weight (xs ++ ys) = weight xs + weight ys := by
  induction xs with
  | nil => simp [weight]
  | cons x xs ih => simp only [List.cons_append, weight, ih]; omega

/-- Clumps that stand in order, cut in two at a line. -/
theorem StandInOrder.cutAt {l : List T} {k : Nat} {xs ys : List (DiffClump T)} (h : StandInOrder l 0 k (xs ++ ys)) :
    ∃ m, k ≤ m ∧ m ≤ l.length ∧ StandInOrder (l.take m) 0 k xs ∧ StandInOrder l 0 m ys ∧
      (m = k ∨ ∃ c ∈ xs, m = c.before.start + c.before.items.length) ∧
      patchedFrom l 0 k (xs ++ ys) = patchedFrom (l.take m) 0 k xs ++ patchedFrom l 0 m ys := by
  induction xs generalizing k with
  | nil =>
    have hk := h.le
    refine ⟨k, Nat.le_refl k, hk, ?_, h, .inl rfl, ?_⟩
    · show k ≤ (l.take k).length
      rw [List.length_take]; omega
    · simp [patchedFrom]
  | cons c xs ih =>
    obtain ⟨h1, h2, h3⟩ := h
    have e0 : (c.before.start + (0 : Int)).toNat = c.before.start := by omega
    obtain ⟨m, g1, g2, g3, g4, g5, g6⟩ := ih h3
    rw [e0] at g1 g3 g5 g6 h3
    obtain ⟨s1, s2, s3⟩ := (standsAt_iff _ _ _).1 h2
    rw [e0] at s2 s3
    have hs : k ≤ c.before.start := by clear g5; omega
    have hcut : ∀ a b, b ≤ m → cut (l.take m) a b = cut l a b := by
      intro a b hb
      apply List.ext_getElem?
      intro t
      simp only [cut_getElem?]
      split
      · rw [List.getElem?_take, if_pos (by omega)]
      · rfl
    have hkm : k ≤ m := by clear g5; omega
    refine ⟨m, hkm, g2, ⟨h1, ?_, by rw [e0]; exact g3⟩, g4, .inr ?_, ?_⟩
    · rw [standsAt_iff, e0, List.length_take, hcut _ _ (by clear g5; omega)]
      exact ⟨s1, by clear g5; omega, s3⟩
    · rcases g5 with rfl | ⟨x, hx, rfl⟩
      · exact ⟨c, by simp, rfl⟩
      · exact ⟨x, by simp [hx], rfl⟩
    · simp only [List.cons_append, patchedFrom]
      rw [e0, g6, hcut _ _ (by clear g5; omega)]
      simp only [List.append_assoc]

/-- The clumps of the second part may be applied first, where they stand. -/
theorem StandInOrder.second_first {l : List T} {xs ys : List (DiffClump T)} (h : StandInOrder l 0 0 (xs ++ ys)) :
    ∃ m, m ≤ l.length ∧ (m = 0 ∨ ∃ c ∈ xs, m = c.before.start + c.before.items.length) ∧
      StandInOrder l 0 0 ys ∧ patchedFrom l 0 0 ys = l.take m ++ patchedFrom l 0 m ys ∧
      StandInOrder (patchedFrom l 0 0 ys) 0 0 xs ∧
      patchedFrom (patchedFrom l 0 0 ys) 0 0 xs = patchedFrom l 0 0 (xs ++ ys) ∧
      patchedFrom l 0 0 (xs ++ ys) = patchedFrom (l.take m) 0 0 xs ++ patchedFrom l 0 m ys := by
  obtain ⟨m, -, h2, h3, h4, h5, h6⟩ := h.cutAt
  have h0 := h4.earlier (Nat.zero_le m)
  have e : patchedFrom l 0 0 ys = l.take m ++ patchedFrom l 0 m ys := by
    cases ys with
    | nil => simp [patchedFrom]
    | cons c ys =>
      have := h4.1
      simp only [patchedFrom]
      rw [← cut_append l (Nat.zero_le m) (show m ≤ (c.before.start + (0 : Int)).toNat by omega)]
      simp [cut]
  have hpost := h3.displace [] (patchedFrom l 0 m ys)
  simp only [List.nil_append, List.length_nil, Nat.add_zero] at hpost
  refine ⟨m, h2, h5, h0, e, ?_, ?_, h6⟩
  · rw [e]; exact hpost.1
  · rw [e, h6]; exact hpost.2

end

/-- What the clumps at the end of a diff make of its source is a list of lines. -/
theorem isLines_later {p : Profile} {s t : Str} {context : Nat} (hctx : context ≤ 255) {xs ys : List (DiffClump Str)}
    (h : diffClumps p (splitInclusive s) (splitInclusive t) context = .ok (xs ++ ys)) :
    IsLines (patchedFrom (splitInclusive s) 0 0 ys).flatten (patchedFrom (splitInclusive s) 0 0 ys) := by
  obtain ⟨hd, changes, hch, hd2⟩ := diffClumps_full hctx h
  have full := isLines_patched hch hd2
  have ls := isLines_splitInclusive s
  by_cases hx : xs = []
  · subst hx; exact full
  by_cases hy : ys = []
  · subst hy
    simp only [patchedFrom, List.drop_zero]
    rw [ls.joined]
    exact ls
  obtain ⟨m, h1, h2, h3, h4, h5, h6, h7⟩ := hd2.standInOrder.second_first
  have hm : m < (splitInclusive s).length ∨ m = 0 := by
    rcases h2 with h2 | ⟨c, hc, rfl⟩
    · exact .inr h2
    · refine .inl (C20_inner h c ?_).1
      rw [List.dropLast_append_of_ne_nil hy]
      simp [hc]
  rw [h7] at full
  rw [h4]
  have hmem : ∀ x, x ∈ (splitInclusive s).take m ++ patchedFrom (splitInclusive s) 0 m ys →
      x ∈ splitInclusive s ∨ x ∈ patchedFrom ((splitInclusive s).take m) 0 0 xs ++ patchedFrom (splitInclusive s) 0 m ys := by
    intro x hx
    rcases List.mem_append.1 hx with hx | hx
    · exact .inl (List.mem_of_mem_take hx)
    · exact .inr (List.mem_append_right _ hx)
  refine ⟨rfl, fun x hx => (hmem x hx).elim (ls.nonempty x) (full.nonempty x),
    fun x hx => (hmem x hx).elim (ls.inner x) (full.inner x), ?_⟩
  intro x hx
  by_cases hr : patchedFrom (splitInclusive s) 0 m ys = []
  · rw [hr, List.append_nil] at hx
    obtain ⟨i, hi, rfl⟩ := List.mem_iff_getElem.1 hx
    rw [List.length_dropLast, List.length_take] at hi
    refine ls.ended _ (List.mem_iff_getElem?.2 ⟨i, ?_⟩)
    rw [List.getElem?_dropLast, if_pos (by omega), List.getElem_dropLast, List.getElem_take, List.getElem?_eq_getElem]
  · rw [List.dropLast_append_of_ne_nil hr] at hx
    rcases List.mem_append.1 hx with hx | hx
    · obtain ⟨i, hi, rfl⟩ := List.mem_iff_getElem.1 hx
      rw [List.length_take] at hi
      refine ls.ended _ (List.mem_iff_getElem?.2 ⟨i, ?_⟩)
      rw [List.getElem?_dropLast, if_pos (by omega), List.getElem_take, List.getElem?_eq_getElem]
    · refine full.ended x ?_
      rw [List.dropLast_append_of_ne_nil hr]
      exact List.mem_append_right _ hx


/-- One patch after the other is applied, every clump cleanly; the text that comes out of one is what the next one is applied to. -/
inductive InTurn (q : Profile) : List (List (DiffClump Str)) → Str → Str → Prop
  | none (s : Str) : InTurn q [] s s
  | more {cs : List (DiffClump Str)} {rest : List (List (DiffClump Str))} {s u v : Str}
      (h : (applyInto q cs (splitInclusive s) false).run = (.ok { clean := cs.length }, u.bytes)) (hs : InTurn q rest u v) :
      InTurn q (cs :: rest) s v

theorem clean_run {T : Type} [Item T] [DecidableEq T] [LawfulItem T] (q : Profile) (l : List T) (ds : List (DiffClump T))
    (h1 : ∀ c ∈ ds, c.WellFormed) (h2 : l.length + weight ds < sizeLimit) (h3 : StandInOrder l 0 0 ds) :
    (applyInto q ds l false).run = (.ok { clean := ds.length }, bytesOf (patchedFrom l 0 0 ds)) := by
  have := patching_clean q l 0 0 {} ds h3
  rw [C57_refines q l ds h1 h2]
  simpa using this

/-- A patch may be cut into any number of pieces.  Applied one after the other to the file the patch was made for, the last one
first, they are all clean, and they give the text that the patch gives. -/
theorem C129_pieces (p q : Profile) (s t : Str) (context : Nat) (hctx : context ≤ 255)
    (hsz : (splitInclusive s).length + (splitInclusive t).length ≤ maxLines) (pieces : List (List (DiffClump Str)))
    (h : diffClumps p (splitInclusive s) (splitInclusive t) context = .ok pieces.flatten) :
    ∃ u : Str, (applyInto q pieces.flatten (splitInclusive s) false).run = (.ok { clean := pieces.flatten.length }, u.bytes) ∧
      InTurn q pieces.reverse s u := by
  have hd := (diffClumps_full hctx h).1
  have hw := hd.wellFormed (by omega) (by omega)
  have hwt := hd.weight
  obtain ⟨skip, hs⟩ := hd.diffed
  have hso := hs.standInOrder
  simp only [maxLines] at hsz
  have key : ∀ (ps : List (List (DiffClump Str))) (done : List (DiffClump Str)), ps.reverse.flatten ++ done = pieces.flatten →
      InTurn q ps (patchedFrom (splitInclusive s) 0 0 done).flatten (patchedFrom (splitInclusive s) 0 0 pieces.flatten).flatten := by
    intro ps
    induction ps with
    | nil => intro done e; rw [← e]; exact .none _
    | cons a ps ih =>
      intro done e
      rw [List.reverse_cons, List.flatten_append, List.flatten_singleton, List.append_assoc] at e
      have hl : splitInclusive (patchedFrom (splitInclusive s) 0 0 done).flatten = patchedFrom (splitInclusive s) 0 0 done := by
        refine isLines_unique (isLines_splitInclusive _) (isLines_later hctx (p := p) (t := t) (context := context)
          (xs := ps.reverse.flatten ++ a) ?_)
        rw [List.append_assoc, e]; exact h
      rw [← e] at hso hw hwt
      obtain ⟨-, -, -, hso', -⟩ := hso.second_first
      obtain ⟨m, -, -, g1, -, g2, g3, -⟩ := hso'.second_first
      have := g1.length
      rw [weight_append, weight_append] at hwt
      refine .more (u := (patchedFrom (splitInclusive s) 0 0 (a ++ done)).flatten) ?_ (ih (a ++ done) e)
      rw [hl, clean_run q _ a (fun c hc => hw c (by simp [hc])) (by simp only [sizeLimit]; omega) g2, g3]
      exact congrArg (Prod.mk _) (flatMap_bytes _)
  refine ⟨(patchedFrom (splitInclusive s) 0 0 pieces.flatten).flatten, ?_, ?_⟩
  · rw [clean_run q _ _ hw (by simp only [sizeLimit]; omega) hso]
    exact congrArg (Prod.mk _) (flatMap_bytes _)
  · have := key pieces.reverse [] (by simp)
    rw [show (patchedFrom (splitInclusive s) 0 0 []).flatten = s from (isLines_splitInclusive s).joined] at this
    exact this

/-- In the other order: the pieces are clean, and give the text that the patch gives. -/
def C129_statement : Prop :=
  ∀ (p q : Profile) (s t : Str) (context : Nat), context ≤ 255 → (splitInclusive s).length + (splitInclusive t).length ≤ maxLines →
    ∀ (pieces : List (List (DiffClump Str))), diffClumps p (splitInclusive s) (splitInclusive t) context = .ok pieces.flatten →
    ∀ u : Str, (applyInto q pieces.flatten (splitInclusive s) false).run = (.ok { clean := pieces.flatten.length }, u.bytes) →
      InTurn q pieces s u

/-- Lines of one letter each. -/
def cards : List Char → Str := fun cs => cs.flatMap fun c => [c, '\n']

/-- That is not so: the first piece moves the lines that the second one is meant for; others stand in their place. -/
theorem C129_refuted : ¬ C129_statement := by
  intro h
  have := h .release .release (cards ['a', 'b', 'x', 'y', 'x', 'y', 'c']) (cards ['a', 'Z', 'Z', 'b', 'x', 'y', 'x', 'N', 'y', 'c']) 1
    (by decide) (by decide +kernel)
    [[⟨(1, 1), ⟨0, letters ['a', 'b']⟩, ⟨0, letters ['a', 'Z', 'Z', 'b']⟩⟩],
      [⟨(1, 1), ⟨4, letters ['x', 'y']⟩, ⟨6, letters ['x', 'N', 'y']⟩⟩]] (by decide +kernel)
    (cards ['a', 'Z', 'Z', 'b', 'x', 'y', 'x', 'N', 'y', 'c']) (by decide +kernel)
  cases this with
  | more h1 h2 =>
    cases h2 with
    | more h2 h3 =>
      cases h3 with
      | none =>
        have e : (applyInto .release [(⟨(1, 1), ⟨0, letters ['a', 'b']⟩, ⟨0, letters ['a', 'Z', 'Z', 'b']⟩⟩ : DiffClump Str)]
          (splitInclusive (cards ['a', 'b', 'x', 'y', 'x', 'y', 'c'])) false).run =
            (.ok { clean := 1 }, (cards ['a', 'Z', 'Z', 'b', 'x', 'y', 'x', 'y', 'c']).bytes) := by decide +kernel
        obtain rfl := Str.bytes_inj (Prod.mk.inj (h1.symm.trans e)).2
        revert h2
        decide +kernel

/-- Any choice of the clumps of a patch applies cleanly to the file the patch was made for; the old lines of these clumps are
replaced and all others are left. -/
theorem C129_choice {T : Type} [Item T] [DecidableEq T] [LawfulItem T] (p q : Profile) (before after : List T) (context : Nat)
    (hctx : context ≤ 255) (hb : before.length ≤ maxLines) (ha : after.length ≤ maxLines) (cs ds : List (DiffClump T))
    (h : diffClumps p before after context = .ok cs) (hds : ds.Sublist cs) :
    (applyInto q ds before false).run = (.ok { clean := ds.length }, bytesOf (patchedFrom before 0 0 ds)) := by
  have hd := (diffClumps_full hctx h).1
  have hw := hd.wellFormed hb ha
  have hsz := hd.size hb ha hb
  obtain ⟨skip, hs⟩ := hd.diffed
  have hwt : ∀ {xs ys : List (DiffClump T)}, xs.Sublist ys → weight xs ≤ weight ys := by
    intro xs ys h
    induction h with
    | slnil => exact Nat.le_refl _
    | cons c _ ih => simp only [weight]; omega
    | cons_cons c _ ih => simp only [weight]; omega
  have hst : ∀ {xs ys : List (DiffClump T)}, xs.Sublist ys → ∀ k, StandInOrder before 0 k ys → StandInOrder before 0 k xs := by
    intro xs ys h
    induction h with
    | slnil => exact fun _ h => h
    | cons c _ ih => exact fun k h => (ih _ h.2.2).earlier (by have := h.1; omega)
    | cons_cons c _ ih => exact fun k h => ⟨h.1, h.2.1, ih _ h.2.2⟩
  have := hwt hds
  exact clean_run q before ds (fun c hc => hw c (hds.subset hc)) (by omega) (hst hds 0 hs.standInOrder)

/-! ## Clumps that keep the number of lines -/

/-- The lines in the old ranges of the clumps are those of `t`, the others those of `l`. -/
structure Painted {T : Type} (l t : List T) (done : List (DiffClump T)) (text : List T) : Prop where
  size : text.length = l.length
  new : ∀ i c, c ∈ done → c.before.start ≤ i → i < c.before.start + c.before.items.length → text[i]? = t[i]?
  old : ∀ i : Nat, (∀ c ∈ done, ¬ (c.before.start ≤ i ∧ i < c.before.start + c.before.items.length)) → text[i]? = l[i]?

theorem Painted.same {T : Type} {l t : List T} {done done' : List (DiffClump T)} {text text' : List T} (h : Painted l t done text)
    (h' : Painted l t done' text') (hm : ∀ c, c ∈ done ↔ c ∈ done') : text = text' := by
  apply List.ext_getElem?
  intro i
  by_cases hc : ∃ c ∈ done, c.before.start ≤ i ∧ i < c.before.start + c.before.items.length
  · obtain ⟨c, h1, h2, h3⟩ := hc
    rw [h.new i c h1 h2 h3, h'.new i c ((hm c).1 h1) h2 h3]
  · rw [h.old i fun c h1 h2 => hc ⟨c, h1, h2⟩, h'.old i fun c h1 h2 => hc ⟨c, (hm c).2 h1, h2⟩]

/-- The clump takes lines of `l` and puts in those of `t` at the same place. -/
structure InPlace {T : Type} (l t : List T) (c : DiffClump T) : Prop where
  fits : c.before.start + c.before.items.length ≤ l.length
  same : c.after.items.length = c.before.items.length
  takes : c.before.items = cut l c.before.start (c.before.start + c.before.items.length)
  puts : c.after.items = cut t c.before.start (c.before.start + c.before.items.length)

theorem Diffed.inPlace {T : Type} {skip : CommonSubsequence → Prop} {before after : List T} {i ie je : Nat} {cs : List (DiffClump T)}
    (h : Diffed skip before after i i cs ie je) (hi : ie ≤ before.length) (hc : ∀ c ∈ cs, c.after.items.length = c.before.items.length) :
    ie = je ∧ ∀ c ∈ cs, InPlace before after c := by
  induction cs generalizing i with
  | nil => obtain ⟨n, h1, h2, -⟩ := h; exact ⟨by omega, by simp⟩
  | cons c cs ih =>
    have hb := h.bounds.2.2.2 c (by simp)
    obtain ⟨⟨n, h1, h2, -⟩, h3, h4, h5⟩ := h
    have e := hc c (by simp)
    have es : c.after.start = c.before.start := by omega
    rw [es, e] at h5 h4
    obtain ⟨g1, g2⟩ := ih h5 fun c h => hc c (by simp [h])
    refine ⟨g1, ?_⟩
    intro x hx
    rcases List.mem_cons.1 hx with rfl | hx
    · exact ⟨by omega, e, h3, h4⟩
    · exact g2 x hx

/-- The old lines of the clumps do not overlap. -/
def OldApart {T : Type} (c d : DiffClump T) : Prop :=
  c.before.start + c.before.items.length ≤ d.before.start ∨ d.before.start + d.before.items.length ≤ c.before.start

theorem StandInOrder.apart {T : Type} {l : List T} {k : Nat} {cs : List (DiffClump T)} (h : StandInOrder l 0 k cs) :
    cs.Pairwise OldApart ∧ ∀ c ∈ cs, k ≤ c.before.start := by
  induction cs generalizing k with
  | nil => exact ⟨.nil, by simp⟩
  | cons c cs ih =>
    obtain ⟨h1, h2, h3⟩ := h
    rw [show (c.before.start + (0 : Int)).toNat = c.before.start by omega] at h3
    obtain ⟨g1, g2⟩ := ih h3
    refine ⟨.cons (fun d hd => .inl (g2 d hd)) g1, ?_⟩
    intro d hd
    rcases List.mem_cons.1 hd with rfl | hd
    · omega
    · have := g2 d hd
      omega

theorem Painted.step {T : Type} {l t : List T} {done : List (DiffClump T)} {text : List T} (h : Painted l t done text)
    {c : DiffClump T} (hc : InPlace l t c) (ha : ∀ d ∈ done, OldApart c d) :
    StandInOrder text 0 0 [c] ∧ Painted l t (c :: done) (patchedFrom text 0 0 [c]) := by
  obtain ⟨c1, c2, c3, c4⟩ := hc
  have hs := h.size
  have stands : cut text c.before.start (c.before.start + c.before.items.length) = c.before.items := by
    apply List.ext_getElem?
    intro i
    conv => rhs; rw [c3]
    simp only [cut_getElem?]
    split
    · refine h.old _ fun d hd hh => ?_
      rcases ha d hd with ha | ha <;> omega
    · rfl
  have e0 : (c.before.start + (0 : Int)).toNat = c.before.start := by omega
  have hitem : ∀ i : Nat, (patchedFrom text 0 0 [c])[i]? =
      if c.before.start ≤ i ∧ i < c.before.start + c.before.items.length then t[i]? else text[i]? := by
    intro i
    simp only [patchedFrom, e0]
    have l1 : (cut text 0 c.before.start).length = c.before.start := by rw [length_cut _ _ _ (by omega)]; omega
    by_cases h1 : i < c.before.start
    · rw [if_neg (by omega), List.append_assoc, List.getElem?_append_left (by omega), cut_getElem?, if_pos (by omega), Nat.zero_add]
    · by_cases h2 : i < c.before.start + c.before.items.length
      · rw [if_pos (by omega), List.getElem?_append_left (by rw [List.length_append]; omega), List.getElem?_append_right (by omega), l1, c4,
          cut_getElem?, if_pos (by omega)]
        congr 1; omega
      · rw [if_neg (by omega), List.getElem?_append_right (by rw [List.length_append]; omega), List.getElem?_drop, List.length_append, l1]
        congr 1; omega
  refine ⟨⟨by omega, ?_, ?_⟩, ?_, ?_, ?_⟩
  · rw [standsAt_iff, e0]
    exact ⟨by omega, by omega, stands⟩
  · show _ ≤ _
    rw [e0]; omega
  · simp only [patchedFrom, e0, List.length_append, List.length_drop]
    rw [length_cut _ _ _ (by omega)]
    omega
  · intro i d hd h1 h2
    rw [hitem]
    split
    · rfl
    · rcases List.mem_cons.1 hd with rfl | hd
      · omega
      · exact h.new i d hd h1 h2
  · intro i hi
    rw [hitem, if_neg (hi c (by simp))]
    exact h.old i fun d hd => hi d (by simp [hd])

theorem Painted.lines {s t : Str} {done : List (DiffClump Str)} {text : List Str}
    (h : Painted (splitInclusive s) (splitInclusive t) done text) (hlen : (splitInclusive t).length = (splitInclusive s).length) :
    splitInclusive text.flatten = text := by
  have ls := isLines_splitInclusive s
  have lt := isLines_splitInclusive t
  have each : ∀ (i : Nat) x, text[i]? = some x → (splitInclusive s)[i]? = some x ∨ (splitInclusive t)[i]? = some x := by
    intro i x hx
    by_cases hc : ∃ c ∈ done, c.before.start ≤ i ∧ i < c.before.start + c.before.items.length
    · obtain ⟨c, h1, h2, h3⟩ := hc
      exact .inr (by rw [← h.new i c h1 h2 h3, hx])
    · exact .inl (by rw [← h.old i fun c h1 h2 => hc ⟨c, h1, h2⟩, hx])
  refine isLines_unique (isLines_splitInclusive _) ⟨rfl, ?_, ?_, ?_⟩
  · intro x hx
    obtain ⟨i, hi⟩ := List.getElem?_of_mem hx
    exact (each i x hi).elim (fun h => ls.nonempty x (List.mem_of_getElem? h)) (fun h => lt.nonempty x (List.mem_of_getElem? h))
  · intro x hx
    obtain ⟨i, hi⟩ := List.getElem?_of_mem hx
    exact (each i x hi).elim (fun h => ls.inner x (List.mem_of_getElem? h)) (fun h => lt.inner x (List.mem_of_getElem? h))
  · intro x hx
    obtain ⟨i, hi⟩ := List.getElem?_of_mem hx
    rw [List.getElem?_dropLast] at hi
    split at hi
    · rename_i hlt
      have := h.size
      rcases each i x hi with g | g
      · exact ls.ended x (List.mem_of_getElem? (i := i) (by rw [List.getElem?_dropLast, if_pos (by omega), g]))
      · exact lt.ended x (List.mem_of_getElem? (i := i) (by rw [List.getElem?_dropLast, if_pos (by omega), g]))
    · cases hi

theorem InTurn.unique {q : Profile} {ps : List (List (DiffClump Str))} {s u v : Str} (h : InTurn q ps s u) (h' : InTurn q ps s v) : u = v := by
  induction h with
  | none => cases h'; rfl
  | more h1 h2 ih =>
    cases h' with
    | more g1 g2 =>
      obtain rfl := Str.bytes_inj (Prod.mk.inj (h1.symm.trans g1)).2
      exact ih g2

/-- If no clump changes the number of lines, they can be applied one at a time in whatever order: each one is clean, and in the end
the text is the one that the patch gives. -/
theorem C129_anyOrder (p q : Profile) (s t : Str) (context : Nat) (hctx : context ≤ 255)
    (hsz : (splitInclusive s).length + (splitInclusive t).length ≤ maxLines) (cs order : List (DiffClump Str))
    (h : diffClumps p (splitInclusive s) (splitInclusive t) context = .ok cs)
    (hlen : ∀ c ∈ cs, c.after.items.length = c.before.items.length) (ho : order.Perm cs) :
    ∃ u : Str, (applyInto q cs (splitInclusive s) false).run = (.ok { clean := cs.length }, u.bytes) ∧
      InTurn q (order.map fun c => [c]) s u := by
  have hd := (diffClumps_full hctx h).1
  have hw := hd.wellFormed (by omega) (by omega)
  have hwt := hd.weight
  obtain ⟨skip, hs⟩ := hd.diffed
  have hso := hs.standInOrder
  obtain ⟨hl, hip⟩ := hs.inPlace (Nat.le_refl _) hlen
  have hap := hso.apart.1
  simp only [maxLines] at hsz
  have key : ∀ (rest done : List (DiffClump Str)) (text : List Str), (∀ c ∈ rest, c ∈ cs) → (rest ++ done).Pairwise OldApart →
      Painted (splitInclusive s) (splitInclusive t) done text → ∃ text', InTurn q (rest.map fun c => [c]) text.flatten text'.flatten ∧
        Painted (splitInclusive s) (splitInclusive t) (rest.reverse ++ done) text' := by
    intro rest
    induction rest with
    | nil => exact fun done text _ _ hp => ⟨text, .none _, hp⟩
    | cons c rest ih =>
      intro done text hm hpw hp
      have hcc := hip c (hm c (by simp))
      obtain ⟨g1, g2⟩ := hp.step hcc (fun d hd => (List.pairwise_cons.1 hpw).1 d (by simp [hd]))
      obtain ⟨text', k1, k2⟩ := ih (c :: done) _ (fun d hd => hm d (by simp [hd])) (by
        refine (List.Perm.pairwise_iff (fun {x y} h => Or.symm h) ?_).1 hpw
        exact List.perm_middle.symm) g2
      refine ⟨text', .more ?_ k1, by simpa using k2⟩
      have hsz' : text.length + weight [c] < sizeLimit := by
        have e1 := hp.size
        have e2 := hcc.fits
        have e3 := hcc.same
        simp only [weight, sizeLimit]
        omega
      rw [hp.lines hl.symm, clean_run q _ [c] (by simpa using hw c (hm c (by simp))) hsz' g1]
      exact congrArg (Prod.mk _) (flatMap_bytes _)
  have start : Painted (splitInclusive s) (splitInclusive t) [] (splitInclusive s) := ⟨rfl, by simp, fun _ _ => rfl⟩
  obtain ⟨text, k1, k2⟩ := key order [] _ (fun c hc => ho.subset hc) (by
    rw [List.append_nil]; exact (List.Perm.pairwise_iff (fun {x y} h => Or.symm h) ho).2 hap) start
  obtain ⟨text', k1', k2'⟩ := key cs.reverse [] _ (by simp) (by
    rw [List.append_nil]; exact (List.Perm.pairwise_iff (fun {x y} h => Or.symm h) cs.reverse_perm).2 hap) start
  have flat : (cs.map fun c => [c]).flatten = cs := by
    clear key k1' k2' hap hip hso hs hwt hw hd ho hlen h
    induction cs with
    | nil => rfl
    | cons c cs ih => rw [List.map_cons, List.flatten_cons, ih]; rfl
  obtain ⟨u, r1, r2⟩ := C129_pieces p q s t context hctx (by simp only [maxLines]; omega) (cs.map fun c => [c]) (by
    rw [h, flat])
  rw [flat] at r1
  rw [(isLines_splitInclusive s).joined] at k1 k1'
  rw [← List.map_reverse] at r2
  obtain rfl := r2.unique k1'
  obtain rfl := k2.same k2' (by intro c; simp [ho.mem_iff])
  exact ⟨_, r1, k1⟩

/-! ## Bytes -/

/-- One patch after the other is applied. -/
inductive InTurnBytes (q : Profile) : List (List (DiffClump UInt8)) → List UInt8 → List UInt8 → Prop
  | none (a : List UInt8) : InTurnBytes q [] a a
  | more {cs : List (DiffClump UInt8)} {rest : List (List (DiffClump UInt8))} {a b c : List UInt8}
      (h : (byteApplyInto q cs a false).run = (.ok (), b)) (hs : InTurnBytes q rest b c) : InTurnBytes q (cs :: rest) a c

/-- Byte patches cut into pieces, applied with the last one first; none of the clumps is without old bytes. -/
theorem C129_bytes (p q : Profile) (before after : List UInt8) (context : Nat) (hctx : context ≤ 255)
    (hsz : 3 * before.length + 2 * after.length < wordSize) (pieces : List (List (DiffClump UInt8)))
    (h : diffClumps p before after context = .ok pieces.flatten) (hne : ∀ c ∈ pieces.flatten, c.before.items ≠ []) :
    ∃ bytes, (byteApplyInto q pieces.flatten before false).run = (.ok (), bytes) ∧ InTurnBytes q pieces.reverse before bytes := by
  have hd := (diffClumps_full hctx h).1
  have hwt := hd.weight
  obtain ⟨skip, hs⟩ := hd.diffed
  have hso := hs.standInOrder
  have clean : ∀ (l : List UInt8) (ds : List (DiffClump UInt8)), l.length + weight ds < wordSize → StandInOrder l 0 0 ds →
      (∀ c ∈ ds, c.before.items ≠ []) → (byteApplyInto q ds l false).run = (.ok (), patchedFrom l 0 0 ds) := by
    intro l ds h1 h2 h3
    refine (C60_refines q l ds h1 _ _).2 (bytePatching_clean l 0 ds h2 fun c hc => ?_)
    have hst : ∀ k, StandInOrder l 0 k ds → ∀ c ∈ ds, c.before.start + c.before.items.length ≤ l.length := by
      clear h1 h2 h3 hc
      induction ds with
      | nil => simp
      | cons d ds ih =>
        intro k h c hc
        rcases List.mem_cons.1 hc with rfl | hc
        · have := ((standsAt_iff _ _ _).1 h.2.1).2.1
          omega
        · exact ih _ h.2.2 c hc
    have := hst 0 h2 c hc
    have := List.length_pos_iff.2 (h3 c hc)
    omega
  have key : ∀ (ps : List (List (DiffClump UInt8))) (done : List (DiffClump UInt8)), ps.reverse.flatten ++ done = pieces.flatten →
      InTurnBytes q ps (patchedFrom before 0 0 done) (patchedFrom before 0 0 pieces.flatten) := by
    intro ps
    induction ps with
    | nil => intro done e; rw [← e]; exact .none _
    | cons a ps ih =>
      intro done e
      rw [List.reverse_cons, List.flatten_append, List.flatten_singleton, List.append_assoc] at e
      rw [← e] at hso hwt hne
      obtain ⟨-, -, -, hso', -⟩ := hso.second_first
      obtain ⟨m, -, -, g1, -, g2, g3, -⟩ := hso'.second_first
      have := g1.length
      rw [weight_append, weight_append] at hwt
      refine .more (b := patchedFrom before 0 0 (a ++ done)) ?_ (ih (a ++ done) e)
      rw [clean _ a (by omega) g2 (fun c hc => hne c (by simp [hc])), g3]
  exact ⟨_, clean _ _ (by omega) hso hne, key pieces.reverse [] (by simp)⟩

/-- The first clump of two. -/
example := C20_inner (p := .debug) (before := letters ['a', 'b', 'x', 'y', 'x', 'y', 'c'])
    (after := letters ['a', 'Z', 'Z', 'b', 'x', 'y', 'x', 'N', 'y', 'c']) (context := 1)
    (cs := [⟨(1, 1), ⟨0, letters ['a', 'b']⟩, ⟨0, letters ['a', 'Z', 'Z', 'b']⟩⟩,
      ⟨(1, 1), ⟨4, letters ['x', 'y']⟩, ⟨6, letters ['x', 'N', 'y']⟩⟩]) (by decide +kernel)
/-- Two pieces: the second one is applied first. -/
example := C129_pieces .debug .release (cards ['a', 'b', 'x', 'y', 'x', 'y', 'c']) (cards ['a', 'Z', 'Z', 'b', 'x', 'y', 'x', 'N', 'y', 'c']) 1
    (by decide) (by decide +kernel)
    [[⟨(1, 1), ⟨0, letters ['a', 'b']⟩, ⟨0, letters ['a', 'Z', 'Z', 'b']⟩⟩],
      [⟨(1, 1), ⟨4, letters ['x', 'y']⟩, ⟨6, letters ['x', 'N', 'y']⟩⟩]] (by decide +kernel)
/-- The second clump alone. -/
example := C129_choice .debug .release (letters ['a', 'b', 'x', 'y', 'x', 'y', 'c']) (letters ['a', 'Z', 'Z', 'b', 'x', 'y', 'x', 'N', 'y', 'c']) 1
    (by decide) (by decide +kernel) (by decide +kernel)
    [⟨(1, 1), ⟨0, letters ['a', 'b']⟩, ⟨0, letters ['a', 'Z', 'Z', 'b']⟩⟩, ⟨(1, 1), ⟨4, letters ['x', 'y']⟩, ⟨6, letters ['x', 'N', 'y']⟩⟩]
    [⟨(1, 1), ⟨4, letters ['x', 'y']⟩, ⟨6, letters ['x', 'N', 'y']⟩⟩] (by decide +kernel) (.cons _ (.cons_cons _ .slnil))
/-- Two clumps that keep the number of lines, the first one first. -/
example := C129_anyOrder .debug .release (cards ['a', 'b', 'c', 'd', 'e', 'f', 'g', 'h', 'i']) (cards ['a', 'X', 'Y', 'd', 'e', 'f', 'Z', 'W', 'i']) 1
    (by decide) (by decide +kernel)
    [⟨(1, 1), ⟨0, letters ['a', 'b', 'c', 'd']⟩, ⟨0, letters ['a', 'X', 'Y', 'd']⟩⟩,
      ⟨(1, 1), ⟨5, letters ['f', 'g', 'h', 'i']⟩, ⟨5, letters ['f', 'Z', 'W', 'i']⟩⟩] _ (by decide +kernel) (by decide) (List.Perm.refl _)
example := C129_bytes .debug .release [1, 2, 3, 4, 5, 6, 7, 8, 9] [1, 10, 11, 12, 3, 4, 5, 6, 13, 14, 15, 9] 1 (by decide) (by decide +kernel)
    [[⟨(1, 1), ⟨0, [1, 2, 3]⟩, ⟨0, [1, 10, 11, 12, 3]⟩⟩], [⟨(1, 1), ⟨5, [6, 7, 8, 9]⟩, ⟨7, [6, 13, 14, 15, 9]⟩⟩]] (by decide +kernel) (by decide)

end PwDiff
