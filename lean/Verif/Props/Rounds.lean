import Verif.Props.Empty
import Verif.Props.Context
import Verif.Props.Foreign

/-! # C127: comparing and patching again and again -/

namespace PwDiff

/-- One round: the file `s` is compared with `t` and patched, which makes it `u`. -/
def Round (p q : Profile) (context : Nat) (t s u : Str) : Prop :=
  ∃ cs, diffClumps p (splitInclusive s) (splitInclusive t) context = .ok cs ∧
    ∃ st, (applyInto q cs (splitInclusive s) false).run = (.ok st, u.bytes)

/-- So many rounds make `u` of `s`. -/
inductive Rounds (p q : Profile) (context : Nat) (t : Str) : Nat → Str → Str → Prop
  | none (s : Str) : Rounds p q context t 0 s s
  | more {n : Nat} {s u v : Str} (h : Round p q context t s u) (hs : Rounds p q context t n u v) : Rounds p q context t (n + 1) s v

/-- What one may expect: what a round has left different, later rounds find, so that in the end the file is the other one. -/
def C127_always : Prop :=
  ∀ (p q : Profile) (context : Nat) (s t : Str), context ≤ 255 → ∃ n, Rounds p q context t n s t

theorem Round.unique {p q : Profile} {context : Nat} {t s u v : Str} (h : Round p q context t s u) (h' : Round p q context t s v) :
    u = v := by
  obtain ⟨cs, h1, st, h2⟩ := h
  obtain ⟨cs', h1', st', h2'⟩ := h'
  obtain rfl := Outcome.ok_inj (h1.symm.trans h1')
  exact Str.bytes_inj (Prod.mk.inj (h2.symm.trans h2')).2

/-- There is always a next round (see C26), and what it makes is determined. -/
theorem C127_next (p q : Profile) (context : Nat) (s t : Str) (hctx : context ≤ 255) (hs : (splitInclusive s).length ≤ maxLines)
    (ht : (splitInclusive t).length ≤ maxLines) : ∃ u, Round p q context t s u ∧ ∀ v, Round p q context t s v → v = u := by
  obtain ⟨cs, hcs⟩ := diffClumps_total p (splitInclusive s) (splitInclusive t) context
  obtain ⟨text, h1, -⟩ := C97_single p q (splitInclusive s) (splitInclusive t) context hctx hs ht cs hcs
  have : Round p q context t s text.flatten := ⟨cs, hcs, _, h1.trans (congrArg _ (flatMap_bytes text))⟩
  exact ⟨_, this, fun v hv => hv.unique this⟩

/-- Once the diff is empty nothing changes any more. -/
theorem C127_stuck (p q : Profile) (context : Nat) (s t : Str)
    (h : diffClumps p (splitInclusive s) (splitInclusive t) context = .ok []) (n : Nat) (u : Str) :
    Rounds p q context t n s u ↔ u = s := by
  have step : Round p q context t s s := ⟨[], h, {}, by rw [C27_empty, bytesOf_splitInclusive]⟩
  constructor
  · intro hr
    generalize hs : s = s' at hr
    induction hr with
    | none => rfl
    | more h1 h2 ih =>
      subst hs
      obtain rfl := h1.unique step
      exact ih rfl
  · rintro rfl
    induction n with
    | zero => exact .none _
    | succ n ih => exact .more step ih

/-- The expectation is false: the difference of these files is never found. -/
theorem C127_refuted : ¬ C127_always := by
  intro h
  obtain ⟨n, hn⟩ := h .debug .debug 3 "a\nb\nc\n".toList "a\nx\nc\n".toList (by decide)
  have := (C127_stuck .debug .debug 3 _ _ (by decide +kernel) n _).1 hn
  exact absurd this (by decide)

/-! ## The rounds come to an end -/

section

variable {T : Type} {before after : List T}

/-- The region in which a block was chosen begins where the whole one does, or where an earlier block ends. -/
theorem Decomp.region {bs be as ae : Nat} {d : List CommonSubsequence} (h : Decomp before after bs be as ae d) {b : CommonSubsequence}
    (hb : b ∈ d) : ∃ bs' be' as' ae', IsBlock before after ⟨bs', be'⟩ ⟨as', ae'⟩ b ∧
      (bs' = bs ∧ as' = as ∨ ∃ c ∈ d, bs' = c.b + c.n ∧ as' = c.a + c.n) := by
  induction h with
  | leaf => cases hb
  | @node bs be as ae c L R hc hl hr ihl ihr =>
    rcases List.mem_append.1 hb with hb | hb
    · obtain ⟨bs', be', as', ae', h1, h2⟩ := ihl hb
      exact ⟨bs', be', as', ae', h1, h2.imp_right fun ⟨x, hx, h⟩ => ⟨x, by simp [hx], h⟩⟩
    · rcases List.mem_cons.1 hb with rfl | hb
      · exact ⟨bs, be, as, ae, hc, .inl ⟨rfl, rfl⟩⟩
      · obtain ⟨bs', be', as', ae', h1, h2⟩ := ihr hb
        refine ⟨bs', be', as', ae', h1, .inr ?_⟩
        rcases h2 with ⟨rfl, rfl⟩ | ⟨x, hx, h⟩
        · exact ⟨c, by simp, rfl, rfl⟩
        · exact ⟨x, by simp [hx], h⟩

/-- An equal pair does not stand between the blocks. -/
theorem Decomp.nowhere {bs be as ae : Nat} {d : List CommonSubsequence} (h : Decomp before after bs be as ae d) {j i : Nat}
    (hj : bs ≤ j ∧ j < be) (hi : as ≤ i ∧ i < ae)
    (hd : ∀ c ∈ d, c.b + c.n ≤ j ∧ c.a + c.n ≤ i ∨ j < c.b ∧ i < c.a) : ¬ Hit before after j i := by
  induction h with
  | leaf h1 h2 h => exact h j i hj.1 hj.2 hi.1 hi.2
  | @node bs be as ae c L R hc hl hr ihl ihr =>
    rcases hd c (by simp) with hcd | hcd
    · exact ihr ⟨hcd.1, hj.2⟩ ⟨hcd.2, hi.2⟩ fun x hx => hd x (by simp [hx])
    · exact ihl ⟨hj.1, hcd.1⟩ ⟨hi.1, hcd.2⟩ fun x hx => hd x (by simp [hx])

variable [DecidableEq T] [Item T] [LawfulItem T]

/-- The first item that the patch changes in a file of the same length is right afterwards. -/
theorem first_right {p : Profile} {context : Nat} {changes : List Change} (hch : changesOf p before after = .ok changes)
    (hr : reals changes ≠ []) (hlen : before.length = after.length) {text : List T} (hl : text.length = after.length)
    (ht : ∀ i : Nat, (∀ j, LeftOut context changes j i → text[i]? = before[j]?) ∧
      ((∀ j, ¬ LeftOut context changes j i) → text[i]? = after[i]?)) :
    ∃ k : Nat, (∀ i : Nat, i < k → text[i]? = before[i]?) ∧ before[k]? ≠ after[k]? ∧ text[k]? = after[k]? := by
  obtain ⟨h1, h2, h3, d, hd, h4⟩ := (C70_changes p before after changes).1 hch
  -- the first change
  obtain ⟨i0, c, rest, hc, hmem, hT, hP, hA, hK⟩ : ∃ i0 c rest, c.isNoChange = false ∧ c ∈ changes ∧
      Tiles i0 i0 (c :: rest) before.length after.length ∧ (∀ x ∈ rest, x.Proper) ∧ Alternating (c :: rest) ∧
      ∀ j i, Kept changes j i ↔ (j = i ∧ i < i0) ∨ Kept rest j i := by
    match changes, h1, h2, h3, hr with
    | [], _, _, _, hr => exact absurd rfl hr
    | .noChange g :: [], _, _, _, hr => exact absurd rfl hr
    | .noChange g :: c :: rest, h1, h2, h3, _ =>
      obtain ⟨g1, g2, g3, g4, g5⟩ := h1
      simp only [Change.old, Change.new] at g1 g2 g5
      have hc := h3.head_real c rfl
      refine ⟨g.n, c, rest, hc, by simp, by rw [g1, g2, Nat.zero_add] at g5; exact g5, fun x hx => h2 x (by simp [hx]), h3.tail, ?_⟩
      intro j i
      constructor
      · rintro ⟨x, hx, t, t1, t2, t3⟩
        rcases List.mem_cons.1 hx with hx | hx
        · cases hx
          left
          omega
        · exact .inr (Kept.tail_real hc ⟨x, hx, t, t1, t2, t3⟩)
      · rintro (⟨rfl, h⟩ | h)
        · exact ⟨g, by simp, j, by omega, by omega, by omega⟩
        · exact h.of_tail.of_tail
    | .insert _ _ :: rest, h1, h2, h3, _ | .delete _ _ :: rest, h1, h2, h3, _ | .replace _ _ :: rest, h1, h2, h3, _ =>
      refine ⟨0, _, rest, rfl, List.mem_cons_self, h1, fun x hx => h2 x (by simp [hx]), h3, ?_⟩
      intro j i
      exact ⟨fun h => .inr (h.tail_real rfl), fun h => h.elim (fun h => absurd h.2 (Nat.not_lt_zero _)) Kept.of_tail⟩
  have hcp := h2 c hmem
  obtain ⟨t1, t2, t3, t4, t5⟩ := hT
  generalize hj1 : c.old.fin = j1 at *
  generalize hi1 : c.new.fin = i1 at *
  have hprop : i0 < j1 ∨ i0 < i1 := by
    cases c <;> simp only [Change.Proper, Change.old, Change.new] at * <;> first | omega | cases hc
  have tle := t5.le
  have hge : ∀ {j i}, Kept rest j i → j1 ≤ j ∧ i1 ≤ i := fun h => Kept.ge t5 h
  -- the blocks are before or after it
  have hside : ∀ b ∈ d, 0 < b.n ∧ (b.b + b.n ≤ i0 ∧ b.a + b.n ≤ i0 ∨ j1 ≤ b.b ∧ i1 ≤ b.a) := by
    intro b hb
    obtain ⟨bs', be', as', ae', ⟨n, e, g1, -, g2⟩, -⟩ := hd.region hb
    have npos := g1.pos
    refine ⟨by omega, ?_⟩
    have hk : ∀ t, t < b.n → (b.b + t = b.a + t ∧ b.a + t < i0) ∨ Kept rest (b.b + t) (b.a + t) :=
      fun t ht => (hK _ _).1 ((h4 _ _).2 ⟨b, hb, t, ht, rfl, rfl⟩)
    rcases hk 0 (by omega) with h0 | h0
    · left
      have : ∀ t, t < b.n → b.a + t < i0 := by
        intro t
        induction t with
        | zero => intro _; exact h0.2
        | succ t ih =>
          intro ht
          have := ih (by omega)
          rcases hk (t + 1) ht with h | h
          · exact h.2
          · have := hge h
            omega
      have := this (b.n - 1) (by omega)
      omega
    · exact .inr (hge h0)
  -- below some bound the result is a line of one of the files, and not always of the old one
  have hlow : ∀ k, k < i0 → text[k]? = before[k]? ∨ text[k]? = after[k]? := by
    intro k hk
    by_cases hex : ∃ j, LeftOut context changes j k
    · obtain ⟨j, hj⟩ := hex
      rcases (hK _ _).1 hj.kept with h | h
      · left; rw [(ht k).1 j hj, h.1]
      · have := hge h
        omega
    · exact .inr ((ht k).2 fun j hj => hex ⟨j, hj⟩)
  obtain ⟨B, hB1, hB2⟩ : ∃ B, (∀ k : Nat, k < B → text[k]? = before[k]? ∨ text[k]? = after[k]?) ∧ ¬ ∀ k : Nat, k < B → text[k]? = before[k]? := by
    by_cases hboth : i0 < j1 ∧ i0 < i1
    · have hat : text[i0]? = after[i0]? := (ht i0).2 fun j hj => by
        rcases (hK _ _).1 hj.kept with h | h
        · omega
        · have := hge h
          omega
      refine ⟨i0 + 1, ?_, ?_⟩
      · intro k hk
        by_cases h : k < i0
        · exact hlow k h
        · rw [show k = i0 by omega]; exact .inr hat
      · intro hall
        have h0 := hall i0 (by omega)
        refine hd.nowhere (j := i0) (i := i0) (by omega) (by omega) ?_ ⟨after[i0]'(by omega), ?_, ?_⟩
        · intro b hb
          have := (hside b hb).2
          omega
        · rw [← h0, hat, List.getElem?_eq_getElem (by omega)]
        · rw [List.getElem?_eq_getElem (by omega)]
    · match rest, t5, hP, hA, hK, @hge with
      | [], t5, _, _, _, _ =>
        obtain ⟨e1, e2⟩ := t5
        omega
      | g :: rest, t5, hP, hA, hK, hge =>
        cases g with
        | insert | delete | replace => exact absurd hc.symm (by simpa [Change.isNoChange] using hA.1.symm)
        | noChange g =>
          obtain ⟨g1, g2, -⟩ := t5
          simp only [Change.old, Change.new] at g1 g2
          have gpos := hP (.noChange g) (by simp)
          simp only [Change.Proper] at gpos
          have hk1 : Kept changes j1 i1 := (hK _ _).2 (.inr ⟨g, by simp, 0, gpos, by omega, by omega⟩)
          obtain ⟨b, hb, t, b1, b2, b3⟩ := (h4 _ _).1 hk1
          have hb' := hside b hb
          obtain ⟨bs', be', as', ae', ⟨n, e, k1, -, k2⟩, hstart⟩ := hd.region hb
          have hbb : b.b = j1 := by omega
          have hba : b.a = i1 := by omega
          rw [hbb, hba] at k1
          have kin1 := k1.inOld
          have kin2 := k1.inNew
          simp only at kin1 kin2
          have hreg : bs' ≤ i0 ∧ as' ≤ i0 := by
            rcases hstart with ⟨rfl, rfl⟩ | ⟨x, hx, e1, e2⟩
            · omega
            · have := hside x hx
              omega
          have hmid : ∀ r, r < n → text[i0 + r]? = after[i0 + r]? := by
            intro r hrn
            by_cases hex : ∃ j, LeftOut context changes j (i0 + r)
            · obtain ⟨j, hj⟩ := hex
              rcases (hK _ _).1 hj.kept with h | h
              · omega
              · have hge' := hge h
                have hkb : Kept changes (j1 + (i0 + r - i1)) (i0 + r) :=
                  (h4 _ _).2 ⟨b, hb, i0 + r - i1, by omega, by omega, by omega⟩
                obtain rfl := (h1.kept_unique hj.kept hkb).2 rfl
                obtain ⟨x, x1, x2⟩ := k1.run (i0 + r - i1) (by omega)
                rw [(ht _).1 _ hj, x1, ← x2]
                congr 1
                omega
            · exact (ht _).2 fun j hj => hex ⟨j, hj⟩
          refine ⟨i0 + n, ?_, ?_⟩
          · intro k hk
            by_cases h : k < i0
            · exact hlow k h
            · have := hmid (k - i0) (by omega)
              rw [show i0 + (k - i0) = k by omega] at this
              exact .inr this
          · intro hall
            have hrun : CommonRun before after i0 i0 n := by
              intro r hrn
              have e1 := hall (i0 + r) (by omega)
              have e2 := hmid r hrn
              obtain ⟨x, -, x2⟩ := k1.run (n - 1) (by omega)
              have := (List.getElem?_eq_some_iff.1 x2).1
              exact ⟨after[i0 + r]'(by omega), by rw [← e1, e2, List.getElem?_eq_getElem], by rw [List.getElem?_eq_getElem]⟩
            have := k1.first i0 i0 hreg.1 (by simp only; omega) hreg.2 (by simp only; omega) hrun
            omega
  -- the first one of those that change
  have key : ∀ B, (∀ k : Nat, k < B → text[k]? = before[k]? ∨ text[k]? = after[k]?) → (¬ ∀ k : Nat, k < B → text[k]? = before[k]?) →
      ∃ k : Nat, (∀ i : Nat, i < k → text[i]? = before[i]?) ∧ before[k]? ≠ after[k]? ∧ text[k]? = after[k]? := by
    intro B
    induction B with
    | zero => intro _ h; exact absurd (fun k hk => absurd hk (Nat.not_lt_zero k)) h
    | succ B ih =>
      intro h1 h2
      by_cases hall : ∀ k : Nat, k < B → text[k]? = before[k]?
      · have hne : text[B]? ≠ before[B]? := fun h => h2 fun k hk => by
          by_cases hkB : k < B
          · exact hall k hkB
          · rwa [show k = B by omega]
        have := (h1 B (by omega)).resolve_left hne
        exact ⟨B, hall, fun h => hne (this.trans h.symm), this⟩
      · exact ih (fun k hk => h1 k (by omega)) hall
  exact key B hB1 hB2

/-- The right items, as digits of a number. -/
def score : List T → List T → Nat
  | a :: as, b :: bs => (if a = b then 2 ^ as.length else 0) + score as bs
  | _, _ => 0

omit [Item T] [LawfulItem T] in
theorem score_lt : ∀ {as bs : List T}, as.length = bs.length → score as bs < 2 ^ as.length
  | [], _, _ => by simp [score]
  | _ :: _, [], h => by simp at h
  | a :: as, b :: bs, h => by
    have := score_lt (as := as) (bs := bs) (by simpa using h)
    rw [score, List.length_cons, Nat.pow_succ]
    split <;> omega

omit [Item T] [LawfulItem T] in
theorem score_mono : ∀ (k : Nat) {as us bs : List T}, as.length = bs.length → us.length = bs.length →
    (∀ i : Nat, i < k → us[i]? = as[i]?) → as[k]? ≠ bs[k]? → us[k]? = bs[k]? → score as bs < score us bs
  | k, [], _, [], _, _, _, h, _ => by simp at h
  | _, [], _, _ :: _, h, _, _, _, _ => by simp at h
  | _, _ :: _, _, [], h, _, _, _, _ => by simp at h
  | _, _ :: _, [], _ :: _, _, h, _, _, _ => by simp at h
  | 0, a :: as, u :: us, b :: bs, h1, h2, _, h3, h4 => by
    have e1 : ¬ a = b := by simpa using h3
    have e2 : u = b := by simpa using h4
    simp only [List.length_cons, Nat.add_right_cancel_iff] at h1 h2
    rw [score, score, if_neg e1, if_pos e2, h2, ← h1]
    have := score_lt h1
    omega
  | k + 1, a :: as, u :: us, b :: bs, h1, h2, h3, h4, h5 => by
    simp only [List.length_cons, Nat.add_right_cancel_iff] at h1 h2
    have e : u = a := by simpa using h3 0 (by omega)
    have := score_mono k h1 h2 (fun i hi => by simpa using h3 (i + 1) (by omega)) (by simpa using h4) (by simpa using h5)
    rw [score, score, e, h1, h2]
    omega

end

/-- The lines a round makes: as many as the other file has. -/
theorem Round.lines {p q : Profile} {context : Nat} {t s u : Str} (hctx : context ≤ 255) (hs : (splitInclusive s).length ≤ maxLines)
    (ht : (splitInclusive t).length ≤ maxLines) (h : Round p q context t s u) :
    ∃ changes, changesOf p (splitInclusive s) (splitInclusive t) = .ok changes ∧
      (splitInclusive u).length = (splitInclusive t).length ∧
      ∀ i : Nat, (∀ j, LeftOut context changes j i → (splitInclusive u)[i]? = (splitInclusive s)[j]?) ∧
        ((∀ j, ¬ LeftOut context changes j i) → (splitInclusive u)[i]? = (splitInclusive t)[i]?) := by
  obtain ⟨cs, hcs, st, hst⟩ := h
  obtain ⟨changes, -, hch, -⟩ := diffClumps_spec p (splitInclusive s) (splitInclusive t) context
  obtain ⟨text, h1, h2, h3⟩ := C97_partial p q _ _ context hctx hs ht changes cs hch hcs
  have hu : u = text.flatten := Str.bytes_inj ((Prod.mk.inj (hst.symm.trans h1)).2.trans (flatMap_bytes text))
  have ls := isLines_splitInclusive s
  have lt := isLines_splitInclusive t
  have ended : ∀ {ls : List Str} {x : Str}, IsLines x ls → ∀ (j : Nat) l, ls[j]? = some l → j + 1 < ls.length → l.getLast? = some '\n' := by
    intro ls x hx j l hl hj
    refine hx.ended l (List.mem_of_getElem? (i := j) ?_)
    rw [List.getElem?_dropLast, if_pos (by omega), hl]
  have each : ∀ (i : Nat) l, text[i]? = some l → (splitInclusive t)[i]? = some l ∨
      (i + 1 < text.length ∧ ∃ j, (splitInclusive s)[j]? = some l ∧ j + 1 < (splitInclusive s).length) := by
    intro i l hl
    by_cases hex : ∃ j, LeftOut context changes j i
    · obtain ⟨j, hj⟩ := hex
      have e := (h3 i).1 j hj
      by_cases hh : Hit (splitInclusive s) (splitInclusive t) j i
      · obtain ⟨x, x1, x2⟩ := hh
        left
        rw [x2, ← x1, ← e, hl]
      · obtain ⟨j', i', rfl, rfl, -, -, x, x1, x2⟩ := kept_isolated hch hj.kept hh
        have l1 := (List.getElem?_eq_some_iff.1 x1).1
        have l2 := (List.getElem?_eq_some_iff.1 x2).1
        exact .inr ⟨by omega, j' + 1, by rw [← e, hl], by omega⟩
    · left
      rw [← (h3 i).2 fun j hj => hex ⟨j, hj⟩, hl]
  have hlines : IsLines u text := by
    refine ⟨hu.symm, ?_, ?_, ?_⟩
    · intro l hl
      obtain ⟨i, hi⟩ := List.getElem?_of_mem hl
      rcases each i l hi with h | ⟨-, j, h, -⟩
      · exact lt.nonempty l (List.mem_of_getElem? h)
      · exact ls.nonempty l (List.mem_of_getElem? h)
    · intro l hl
      obtain ⟨i, hi⟩ := List.getElem?_of_mem hl
      rcases each i l hi with h | ⟨-, j, h, -⟩
      · exact lt.inner l (List.mem_of_getElem? h)
      · exact ls.inner l (List.mem_of_getElem? h)
    · intro l hl
      obtain ⟨i, hi⟩ := List.getElem?_of_mem hl
      rw [List.getElem?_dropLast] at hi
      split at hi
      · rcases each i l hi with h | ⟨-, j, h, hj⟩
        · exact ended lt i l h (by omega)
        · exact ended ls j l h hj
      · cases hi
  have : splitInclusive u = text := isLines_unique (isLines_splitInclusive u) hlines
  rw [this]
  exact ⟨changes, hch, h2, h3⟩

/-- If the diff is not empty, a round on a file with the right number of lines makes the first line it changes right. -/
theorem Round.forward {p q : Profile} {context : Nat} {t s u : Str} (hctx : context ≤ 255) (ht : (splitInclusive t).length ≤ maxLines)
    (h : Round p q context t s u) (hlen : (splitInclusive s).length = (splitInclusive t).length)
    (hd : diffClumps p (splitInclusive s) (splitInclusive t) context ≠ .ok []) :
    ∃ k : Nat, (∀ i : Nat, i < k → (splitInclusive u)[i]? = (splitInclusive s)[i]?) ∧
      (splitInclusive s)[k]? ≠ (splitInclusive t)[k]? ∧ (splitInclusive u)[k]? = (splitInclusive t)[k]? := by
  obtain ⟨changes, h1, h2, h3⟩ := h.lines hctx (by omega) ht
  exact first_right h1 (fun hr => hd (clumpsOf_noReals p _ _ context h1 hr).2) hlen h2 h3

/-- Exactly: a round changes nothing only if the file is the other one already, or all that is left is `Overlooked`. -/
theorem C127_exact (p q : Profile) (context : Nat) (s t : Str) (hctx : context ≤ 255) (hs : (splitInclusive s).length ≤ maxLines)
    (ht : (splitInclusive t).length ≤ maxLines) :
    Round p q context t s s ↔ s = t ∨ ∃ n e k, Overlooked (splitInclusive s) (splitInclusive t) n e k := by
  have hst : splitInclusive s = splitInclusive t ↔ s = t :=
    ⟨fun h => by rw [← flatten_splitInclusive s, h, flatten_splitInclusive], fun h => by rw [h]⟩
  rw [← hst, ← C16_exact p _ _ context]
  constructor
  · intro h
    apply Classical.byContradiction
    intro hd
    obtain ⟨changes, -, h2, -⟩ := h.lines hctx hs ht
    obtain ⟨k, -, h3, h4⟩ := h.forward hctx ht h2 hd
    exact h3 h4
  · intro h
    have := (C127_stuck p q context s t h 1 s).2 rfl
    cases this with
    | more h1 h2 => cases h2; exact h1

theorem Rounds.unique {p q : Profile} {context n : Nat} {t s u v : Str} (h : Rounds p q context t n s u) (h' : Rounds p q context t n s v) :
    u = v := by
  induction h with
  | none => cases h'; rfl
  | more h1 h2 ih =>
    cases h' with
    | more g1 g2 =>
      obtain rfl := h1.unique g1
      exact ih g2

theorem Rounds.split {p q : Profile} {context n m : Nat} {t s v : Str} :
    Rounds p q context t (n + m) s v ↔ ∃ u, Rounds p q context t n s u ∧ Rounds p q context t m u v := by
  induction n generalizing s with
  | zero =>
    rw [Nat.zero_add]
    exact ⟨fun h => ⟨s, .none _, h⟩, fun ⟨u, h1, h2⟩ => by cases h1; exact h2⟩
  | succ n ih =>
    rw [Nat.add_right_comm]
    constructor
    · intro h
      cases h with
      | more h1 h2 =>
        obtain ⟨u, g1, g2⟩ := ih.1 h2
        exact ⟨u, .more h1 g1, g2⟩
    · rintro ⟨u, h1, h2⟩
      cases h1 with
      | more g1 g2 => exact .more g1 (ih.2 ⟨u, g2, h2⟩)

/-- The rounds come to an end.  After so many the file does not change any more, and then it is the other one or all
that is left is `Overlooked`. -/
theorem C127_end (p q : Profile) (context : Nat) (s t : Str) (hctx : context ≤ 255) (hs : (splitInclusive s).length ≤ maxLines)
    (ht : (splitInclusive t).length ≤ maxLines) :
    ∃ n u, n ≤ 2 ^ (splitInclusive t).length ∧ (∀ m, n ≤ m → ∀ v, Rounds p q context t m s v ↔ v = u) ∧
      (u = t ∨ ∃ n e k, Overlooked (splitInclusive u) (splitInclusive t) n e k) := by
  have loop : ∀ (m : Nat) (s : Str), (splitInclusive s).length = (splitInclusive t).length →
      2 ^ (splitInclusive t).length - score (splitInclusive s) (splitInclusive t) ≤ m →
      ∃ n u, n + score (splitInclusive s) (splitInclusive t) < 2 ^ (splitInclusive t).length ∧ Rounds p q context t n s u ∧
        diffClumps p (splitInclusive u) (splitInclusive t) context = .ok [] := by
    intro m
    induction m with
    | zero =>
      intro s hl hm
      have := score_lt hl
      rw [hl] at this
      omega
    | succ m ih =>
      intro s hl hm
      have hlt := score_lt hl
      rw [hl] at hlt
      by_cases hd : diffClumps p (splitInclusive s) (splitInclusive t) context = .ok []
      · exact ⟨0, s, by omega, .none _, hd⟩
      · obtain ⟨u, hu, -⟩ := C127_next p q context s t hctx (by omega) ht
        obtain ⟨k, k1, k2, k3⟩ := hu.forward hctx ht hl hd
        obtain ⟨changes, -, hul, -⟩ := hu.lines hctx (by omega) ht
        have := score_mono k hl hul k1 k2 k3
        obtain ⟨n, v, g1, g2, g3⟩ := ih u hul (by omega)
        exact ⟨n + 1, v, by omega, .more hu g2, g3⟩
  obtain ⟨n, u, hn, hr, hd⟩ : ∃ n u, n ≤ 2 ^ (splitInclusive t).length ∧ Rounds p q context t n s u ∧
      diffClumps p (splitInclusive u) (splitInclusive t) context = .ok [] := by
    obtain ⟨u, hu, -⟩ := C127_next p q context s t hctx hs ht
    obtain ⟨changes, -, hul, -⟩ := hu.lines hctx hs ht
    obtain ⟨n, v, g1, g2, g3⟩ := loop _ u hul (Nat.le_refl _)
    exact ⟨n + 1, v, by omega, .more hu g2, g3⟩
  refine ⟨n, u, hn, ?_, ?_⟩
  · intro m hm v
    obtain ⟨r, rfl⟩ := Nat.exists_eq_add_of_le hm
    rw [Rounds.split]
    constructor
    · rintro ⟨w, h1, h2⟩
      obtain rfl := h1.unique hr
      exact (C127_stuck p q context w t hd r v).1 h2
    · rintro rfl
      exact ⟨v, hr, (C127_stuck p q context v t hd r v).2 rfl⟩
  · refine ((C16_exact p _ _ context).1 hd).imp_left fun h => ?_
    rw [← flatten_splitInclusive u, h, flatten_splitInclusive]

/-! ## Files that take many rounds -/

/-- `L` lines; of the first `2 * s` every second one is wrong. -/
def wrongOdd (L s : Nat) : List Str := (List.range L).map fun j => row (if j % 2 = 1 ∧ j < 2 * s then 2 * j + 1 else 2 * j)

theorem wrongOdd_get (L s j : Nat) : (wrongOdd L s)[j]? = if j < L then some (row (if j % 2 = 1 ∧ j < 2 * s then 2 * j + 1 else 2 * j)) else none := by
  by_cases h : j < L
  · rw [wrongOdd, List.getElem?_map, List.getElem?_range h, if_pos h]; rfl
  · rw [List.getElem?_eq_none (by simp [wrongOdd]; omega), if_neg h]

theorem wrongOdd_length (L s : Nat) : (wrongOdd L s).length = L := by simp [wrongOdd]

theorem wrongOdd_hit {L s j i : Nat} : Hit (wrongOdd L s) (wrongOdd L 0) j i ↔ j = i ∧ j < L ∧ ¬ (j % 2 = 1 ∧ j < 2 * s) := by
  constructor
  · rintro ⟨x, h1, h2⟩
    rw [wrongOdd_get] at h1 h2
    split at h1
    · split at h2
      · have := row_inj (Option.some.inj (h1.trans h2.symm))
        split at this <;> split at this <;> omega
      · cases h2
    · cases h1
  · rintro ⟨rfl, h1, h2⟩
    refine ⟨row (2 * j), ?_, ?_⟩
    · rw [wrongOdd_get, if_pos h1, if_neg h2]
    · rw [wrongOdd_get, if_pos h1, if_neg (by omega)]

theorem wrongOdd_left {L s : Nat} (hL : 2 * s ≤ L) (m r : Nat) (h : r + m + 1 = s) :
    ∃ d, Decomp (wrongOdd L s) (wrongOdd L 0) (2 * r) (2 * s) (2 * r) (2 * s) d ∧
      ∀ j i, Covered d j i ↔ j = i ∧ 2 * r ≤ j ∧ j < 2 * s - 1 := by
  have block : ∀ r e, r < s → e = (if r + 1 < s then 1 else 0) →
      IsBlock (wrongOdd L s) (wrongOdd L 0) ⟨2 * r, 2 * s⟩ ⟨2 * r, 2 * s⟩ ⟨2 * r, 2 * r, 1 + e⟩ := by
    intro r e hr he
    refine ⟨1, e, ⟨by omega, ⟨Nat.le_refl _, by simp only; omega⟩, ⟨Nat.le_refl _, by simp only; omega⟩, ?_, ?_, ?_⟩, ⟨?_, ?_, ?_⟩, rfl⟩
    · intro t ht
      exact wrongOdd_hit.2 ⟨rfl, by simp only; omega, by simp only; omega⟩
    · intro j i n _ g2 _ _ hn
      simp only at g2
      rcases Nat.lt_or_ge 1 n with h | h
      · have h0 := wrongOdd_hit.1 (hn 0 (by omega))
        have h1 := wrongOdd_hit.1 (hn 1 h)
        omega
      · exact h
    · intro j i h1 _ h2 _ _
      exact ⟨h2, fun _ => h1⟩
    · intro t ht
      split at he <;> exact wrongOdd_hit.2 ⟨rfl, by simp only; omega, by simp only; omega⟩
    · intro h
      simp only
      split at he <;> omega
    · intro h1 _ h
      have := wrongOdd_hit.1 h
      simp only at h1 this
      split at he <;> omega
  induction m generalizing r with
  | zero =>
    refine ⟨_, .node _ (block r 0 (by omega) (by rw [if_neg (by omega)]))
      (.leaf (Nat.le_refl _) (Nat.le_refl _) (by intro j i h1 h2; simp only at h2; omega)) (.leaf ?_ ?_ ?_), ?_⟩
    · simp only; omega
    · simp only; omega
    · intro j i h1 h2 _ _ hh
      have := wrongOdd_hit.1 hh
      simp only at h1
      omega
    · intro j i
      simp only [Covered, List.nil_append, List.mem_singleton, exists_eq_left, covers_diagonal]
      omega
  | succ m ih =>
    obtain ⟨d, h1, h2⟩ := ih (r + 1) (by omega)
    refine ⟨_, .node _ (block r 1 (by omega) (by rw [if_pos (by omega)]))
      (.leaf (Nat.le_refl _) (Nat.le_refl _) (by intro j i h1 h2; simp only at h2; omega)) h1, ?_⟩
    intro j i
    have := h2 j i
    simp only [Covered, List.nil_append, List.mem_cons, exists_eq_or_imp, covers_diagonal] at this ⊢
    rw [this]
    omega

/-- Only the last of the wrong lines is found. -/
theorem wrongOdd_changes (p : Profile) {L s : Nat} (hs : 0 < s) (hL : 2 * s + 2 ≤ L) :
    changesOf p (wrongOdd L s) (wrongOdd L 0) =
      .ok [.noChange ⟨0, 0, 2 * s - 1⟩, .replace ⟨2 * s - 1, 2 * s⟩ ⟨2 * s - 1, 2 * s⟩, .noChange ⟨2 * s, 2 * s, L - 2 * s⟩] := by
  obtain ⟨d, h1, h2⟩ := wrongOdd_left (L := L) (s := s) (by omega) (s - 1) 0 (by omega)
  have long : ∀ j i n, 2 ≤ n → CommonRun (wrongOdd L s) (wrongOdd L 0) j i n → j = i ∧ 2 * s ≤ j ∧ j + n ≤ L := by
    intro j i n hn hr
    have g0 := wrongOdd_hit.1 (hr 0 (by omega))
    have g1 := wrongOdd_hit.1 (hr 1 (by omega))
    have g2 := wrongOdd_hit.1 (hr (n - 1) (by omega))
    omega
  have hblock : IsBlock (wrongOdd L s) (wrongOdd L 0) ⟨0, L⟩ ⟨0, L⟩ ⟨2 * s, 2 * s, L - 2 * s⟩ := by
    refine ⟨L - 2 * s, 0, ⟨by omega, ⟨Nat.zero_le _, by simp only; omega⟩, ⟨Nat.zero_le _, by simp only; omega⟩, ?_, ?_, ?_⟩,
      ⟨fun t ht => absurd ht (Nat.not_lt_zero t), fun h => absurd h (Nat.lt_irrefl 0), ?_⟩, rfl⟩
    · intro t ht
      exact wrongOdd_hit.2 ⟨rfl, by simp only; omega, by simp only; omega⟩
    · intro j i n _ _ _ _ hr
      rcases Nat.lt_or_ge 1 n with h | h
      · have := long j i n h hr
        omega
      · omega
    · intro j i _ _ _ _ hr
      have := long j i _ (by omega) hr
      simp only
      omega
    · intro h
      simp only at h
      omega
  rw [C70_changes, wrongOdd_length, wrongOdd_length]
  refine ⟨?_, ?_, ?_, d ++ ⟨2 * s, 2 * s, L - 2 * s⟩ :: [], ?_, ?_⟩
  · simp only [Tiles, Change.old, Change.new]
    and_intros <;> first | trivial | omega
  · intro c hc
    simp only [List.mem_cons, List.not_mem_nil, or_false] at hc
    rcases hc with rfl | rfl | rfl <;> simp only [Change.Proper] <;> omega
  · simp [Alternating, Change.isNoChange]
  · refine .node _ hblock (by simpa using h1) (.leaf (by simp only; omega) (by simp only; omega) ?_)
    intro j i g1 g2
    simp only at g1
    omega
  · intro j i
    have := h2 j i
    have e1 : ∀ a b c, Kept [.noChange a, .replace b c, .noChange ⟨2 * s, 2 * s, L - 2 * s⟩] j i ↔
        a.Covers j i ∨ (⟨2 * s, 2 * s, L - 2 * s⟩ : CommonSubsequence).Covers j i := by
      intro a b c
      simp [Kept, or_and_right, exists_or]
    have e2 : Covered (d ++ [⟨2 * s, 2 * s, L - 2 * s⟩]) j i ↔ Covered d j i ∨ (⟨2 * s, 2 * s, L - 2 * s⟩ : CommonSubsequence).Covers j i := by
      simp [Covered, or_and_right, exists_or]
    rw [e1, e2, this, covers_diagonal, covers_diagonal]
    omega

theorem wrongOdd_flatten (L s : Nat) : splitInclusive (wrongOdd L s).flatten = wrongOdd L s := by
  have := splitInclusive_flatten (ls := wrongOdd L s) (by
    intro l hl
    obtain ⟨j, -, rfl⟩ := List.mem_map.1 hl
    exact row_whole _) []
  rwa [List.append_nil, show splitInclusive [] = [] from rfl, List.append_nil] at this

theorem wrongOdd_round (p q : Profile) {context L s : Nat} (hctx : context ≤ 255) (hs : 0 < s) (hL : 2 * s + 2 ≤ L) (hm : L ≤ maxLines) :
    Round p q context (wrongOdd L 0).flatten (wrongOdd L s).flatten (wrongOdd L (s - 1 - context / 2)).flatten := by
  obtain ⟨cs, hcs⟩ := diffClumps_total p (wrongOdd L s) (wrongOdd L 0) context
  obtain ⟨text, h1, h2, h3⟩ := C97_partial p q (wrongOdd L s) (wrongOdd L 0) context hctx (by rw [wrongOdd_length]; exact hm)
    (by rw [wrongOdd_length]; exact hm) _ cs (wrongOdd_changes p hs hL) hcs
  rw [wrongOdd_length] at h2
  have hout : ∀ j i, LeftOut context [.noChange ⟨0, 0, 2 * s - 1⟩, .replace ⟨2 * s - 1, 2 * s⟩ ⟨2 * s - 1, 2 * s⟩,
      .noChange ⟨2 * s, 2 * s, L - 2 * s⟩] j i ↔ j = i ∧ (j + context < 2 * s - 1 ∨ 2 * s + context ≤ j ∧ j < L) := by
    intro j i
    constructor
    · rintro ⟨pre, c, post, t, g1, g2, g3, g4, g5, g6⟩
      match pre, g1 with
      | [], g1 =>
        obtain ⟨e1, rfl⟩ := List.cons.inj g1
        cases e1
        have := g6 (by simp)
        simp only at *
        omega
      | [_], g1 => simp at g1
      | [_, _], g1 =>
        simp only [List.cons_append, List.nil_append, List.cons.injEq, Change.noChange.injEq] at g1
        obtain ⟨rfl, rfl, rfl, rfl⟩ := g1
        have := g5 (by simp)
        simp only at *
        omega
      | _ :: _ :: _ :: pre, g1 =>
        have := congrArg List.length g1
        simp at this
    · rintro ⟨rfl, h | h⟩
      · refine ⟨[], _, _, j, rfl, ?_, ?_, ?_, ?_, ?_⟩ <;> simp <;> omega
      · refine ⟨[_, _], _, [], j - 2 * s, rfl, ?_, ?_, ?_, ?_, ?_⟩ <;> simp <;> omega
  have htext : text = wrongOdd L (s - 1 - context / 2) := by
    apply List.ext_getElem?
    intro i
    obtain ⟨g1, g2⟩ := h3 i
    by_cases hex : ∃ j, LeftOut context [.noChange ⟨0, 0, 2 * s - 1⟩, .replace ⟨2 * s - 1, 2 * s⟩ ⟨2 * s - 1, 2 * s⟩,
      .noChange ⟨2 * s, 2 * s, L - 2 * s⟩] j i
    · obtain ⟨j, hj⟩ := hex
      obtain ⟨rfl, hj'⟩ := (hout j i).1 hj
      rw [g1 j hj, wrongOdd_get, wrongOdd_get]
      congr 2
      split <;> split <;> first | rfl | omega
    · rw [g2 fun j hj => hex ⟨j, hj⟩, wrongOdd_get, wrongOdd_get]
      have hno : ¬ (i + context < 2 * s - 1) := fun h => hex ⟨i, (hout i i).2 ⟨rfl, .inl h⟩⟩
      congr 2
      split <;> split <;> first | rfl | omega
  subst htext
  refine ⟨cs, by rw [wrongOdd_flatten, wrongOdd_flatten]; exact hcs, { clean := cs.length }, ?_⟩
  rw [wrongOdd_flatten]
  exact h1.trans (congrArg _ (flatMap_bytes _))

/-- There is no bound to the number of rounds: for every number there are files that become the same after so many, but not after
fewer. -/
theorem C127_rounds (p q : Profile) (context k : Nat) (hctx : context ≤ 255) (hk : k ≤ 2 ^ 50) :
    ∃ s t : Str, Rounds p q context t k s t ∧ ∀ n u, n < k → Rounds p q context t n s u → u ≠ t := by
  have key : ∀ L r m : Nat, L ≤ maxLines → 2 * (r * (1 + context / 2)) + 2 ≤ L → m ≤ r →
      Rounds p q context (wrongOdd L 0).flatten m (wrongOdd L (r * (1 + context / 2))).flatten
        (wrongOdd L ((r - m) * (1 + context / 2))).flatten := by
    intro L r m hL
    induction m generalizing r with
    | zero => intro _ _; exact .none _
    | succ m ih =>
      intro h1 h2
      obtain ⟨r, rfl⟩ : ∃ r', r = r' + 1 := ⟨r - 1, by omega⟩
      rw [Nat.add_mul, Nat.one_mul] at h1
      have := wrongOdd_round p q (context := context) (L := L) (s := (r + 1) * (1 + context / 2)) hctx
        (by rw [Nat.add_mul]; omega) (by rw [Nat.add_mul]; omega) hL
      rw [show (r + 1) * (1 + context / 2) - 1 - context / 2 = r * (1 + context / 2) by rw [Nat.add_mul]; omega] at this
      have g := ih r (by omega) (by omega)
      rw [show r + 1 - (m + 1) = r - m by omega]
      exact .more this g
  have hL : 2 * (k * (1 + context / 2)) + 2 ≤ maxLines := by
    have : k * (1 + context / 2) ≤ 2 ^ 50 * 128 := Nat.mul_le_mul hk (by omega)
    simp only [maxLines]
    omega
  refine ⟨(wrongOdd (2 * (k * (1 + context / 2)) + 2) (k * (1 + context / 2))).flatten,
    (wrongOdd (2 * (k * (1 + context / 2)) + 2) 0).flatten, ?_, ?_⟩
  · have := key _ k k hL (Nat.le_refl _) (Nat.le_refl _)
    rwa [Nat.sub_self, Nat.zero_mul] at this
  · intro n u hn hr
    have := hr.unique (key _ k n hL (Nat.le_refl _) (by omega))
    subst this
    intro e
    have e := congrArg splitInclusive e
    rw [wrongOdd_flatten, wrongOdd_flatten] at e
    have h1 : 1 ≤ (k - n) * (1 + context / 2) := Nat.mul_pos (by omega) (by omega)
    have hit : Hit (wrongOdd (2 * (k * (1 + context / 2)) + 2) ((k - n) * (1 + context / 2)))
        (wrongOdd (2 * (k * (1 + context / 2)) + 2) 0) 1 1 := by
      rw [e]
      exact wrongOdd_hit.2 ⟨rfl, by omega, by omega⟩
    have := (wrongOdd_hit.1 hit).2.2
    omega

/-- With three lines of context, five rounds of `pw_diff` and `pw_patch` are needed for some files. -/
example := C127_rounds .release .release 3 5 (by decide) (by omega)

example := C127_end .debug .release 0 "a\nb\nx\nc\nd\n".toList "a\nb\ny\nc\nz\nd".toList (by decide) (by decide) (by decide)

example := C127_next .debug .release 3 "a\nb\nx\nc\nd\n".toList "a\nb\ny\nc\nz\nd".toList (by decide) (by decide) (by decide)

example : Round .debug .release 3 "a\nx\nc\n".toList "a\nb\nc\n".toList "a\nb\nc\n".toList :=
  (C127_exact .debug .release 3 _ _ (by decide) (by decide) (by decide)).2
    (.inr ((C16_exact .debug _ _ 3).1 (by decide +kernel) |>.resolve_left (by decide)))

def slowOld : Str := ['0', '\n', '2', '\n', '4', '\n', '7', '\n', '8', '\n', '9', '\n']
def slowMid : Str := ['0', '\n', '2', '\n', '4', '\n', '6', '\n', '8', '\n', '9', '\n']
def slowNew : Str := ['0', '\n', '1', '\n', '4', '\n', '6', '\n', '8', '\n', '9', '\n']

/-- The first round leaves the line `2` as it is, the second one finds it. -/
example : Round .release .release 0 slowNew slowOld slowMid ∧ Round .release .release 0 slowNew slowMid slowNew ∧ slowMid ≠ slowNew := by
  refine ⟨⟨[⟨(0, 0), ⟨3, [['7', '\n']]⟩, ⟨3, [['6', '\n']]⟩⟩], by decide +kernel, { clean := 1 }, by decide +kernel⟩, ?_, by decide⟩
  exact ⟨[⟨(0, 0), ⟨1, [['2', '\n']]⟩, ⟨1, [['1', '\n']]⟩⟩], by decide +kernel, { clean := 1 }, by decide +kernel⟩

def growOld : Str := ['1', '\n', '1', '\n', '1', '\n', '1', '\n', '1', '\n', '0', '\n', '1', '\n', '0', '\n', '0', '\n', '0', '\n']
def growMid : Str := ['1', '\n', '1', '\n', '1', '\n', '0', '\n', '1', '\n', '0', '\n', '0', '\n', '0', '\n', '0', '\n', '0', '\n']
def growNew : Str := ['1', '\n', '1', '\n', '1', '\n', '0', '\n', '1', '\n', '0', '\n', '1', '\n', '0', '\n', '0', '\n', '0', '\n']

/-- A round may make a line wrong that was right (the seventh): only the first line it changes is sure to be right afterwards. -/
example : Round .release .release 0 growNew growOld growMid :=
  ⟨[⟨(0, 0), ⟨0, [['1', '\n'], ['1', '\n']]⟩, ⟨0, []⟩⟩, ⟨(0, 0), ⟨10, []⟩, ⟨8, [['0', '\n'], ['0', '\n']]⟩⟩], by decide +kernel,
    { clean := 2 }, by decide +kernel⟩

end PwDiff
