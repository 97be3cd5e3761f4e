import Verif.Props.Columns

/-! # C137: a file that was changed between the clumps of a patch -/

namespace PwDiff

section

variable {T : Type}

/-- A text in which other lines and one side of the clumps take turns; `last` are the lines after the last clump. -/
def woven (side : DiffClump T → Snippet T) : List (List T × DiffClump T) → List T → List T
  | [], last => last
  | (gap, c) :: parts, last => gap ++ (side c).items ++ woven side parts last

/-- No clump (one side of it), not even without some of its context, fits anywhere but at its place; `pos` lines are before the first
gap. -/
def OnlyThere (side : DiffClump T → Snippet T) (l : List T) : Nat → List (List T × DiffClump T) → Prop
  | _, [] => True
  | pos, (gap, c) :: parts =>
    (∀ x : Int, x ≠ (pos + gap.length : Nat) → Fits (side c).items c.contextLengths l x none) ∧
      OnlyThere side l (pos + gap.length + (side c).items.length) parts

/-- A clump that stands further down than expected, counting from where the one before was found (`offset` from where it was said to
be), stands before the limit of the search. -/
def WithinSearch (side : DiffClump T → Snippet T) (l : List T) : Nat → Int → List (List T × DiffClump T) → Prop
  | _, _, [] => True
  | pos, offset, (gap, c) :: parts =>
    ((side c).start + offset < (pos + gap.length : Nat) → ((pos + gap.length : Nat) : Int) <
      searchLimit l c.contextLengths (side c) (parts.head?.map fun x => side x.2) offset) ∧
    WithinSearch side l (pos + gap.length + (side c).items.length) ((pos + gap.length : Nat) - (side c).start) parts

/-- How many clumps are not where they are expected, counting from where the one before was found. -/
def shifts (side : DiffClump T → Snippet T) : Nat → Int → List (List T × DiffClump T) → Nat
  | _, _, [] => 0
  | pos, offset, (gap, c) :: parts =>
    (if ((pos + gap.length : Nat) : Int) = (side c).start + offset then 0 else 1) +
      shifts side (pos + gap.length + (side c).items.length) ((pos + gap.length : Nat) - (side c).start) parts

theorem shifts_le (side : DiffClump T → Snippet T) (pos : Nat) (offset : Int) (parts : List (List T × DiffClump T)) :
    shifts side pos offset parts ≤ parts.length := by
  induction parts generalizing pos offset with
  | nil => simp [shifts]
  | cons x parts ih =>
    have := ih (pos + x.1.length + (side x.2).items.length) ((pos + x.1.length : Nat) - (side x.2).start)
    simp only [shifts, List.length_cons]
    split <;> omega

/-- One side of a clump ends before the next one begins. -/
def Disjoint (side : DiffClump T → Snippet T) (cs : List (DiffClump T)) : Prop :=
  cs.Pairwise fun c d => (side c).start + (side c).items.length ≤ (side d).start

theorem not_underflow (side : DiffClump T → Snippet T) {l : List T} {c : DiffClump T} {next : Option (DiffClump T)} {offset : Int}
    (h0 : 0 ≤ (side c).start + offset) (hl : (side c).items.length ≤ l.length)
    (hn : ∀ n ∈ next, (side c).start + (side c).items.length ≤ (side n).start) :
    ¬ Underflow l c.contextLengths (side c) (next.map side) offset := by
  rintro ⟨h1, h2⟩
  cases next with
  | none =>
    simp only [Option.map_none, searchRoom, coreLen] at h1 h2
    omega
  | some n =>
    have := hn n rfl
    simp only [Option.map_some, searchRoom, coreLen] at h1 h2
    omega

theorem head_map (side : DiffClump T → Snippet T) (parts : List (List T × DiffClump T)) :
    (parts.map (·.2)).head?.map side = parts.head?.map fun x => side x.2 := by
  cases parts <;> rfl

theorem patching_woven [Item T] (p : Profile) (l : List T) (parts : List (List T × DiffClump T)) (last front : List T) (pos : Nat)
    (offset : Int) (st : Statistics) (hl : l = front ++ woven DiffClump.before parts last) (hpos : front.length = pos)
    (hu : OnlyThere DiffClump.before l pos parts) (ho : Disjoint DiffClump.before (parts.map (·.2))) (h0 : ∀ x ∈ parts, 0 ≤ x.2.before.start + offset)
    (hr : WithinSearch DiffClump.before l pos offset parts) :
    Patching p l pos offset st (parts.map (·.2)) (bytesOf (woven DiffClump.after parts last))
      (.ok { st with fuzzy := st.fuzzy + shifts DiffClump.before pos offset parts, clean := st.clean + (parts.length - shifts DiffClump.before pos offset parts) }) := by
  induction parts generalizing front pos offset st with
  | nil =>
    have := Patching.finish (p := p) (l := l) (k := pos) (offset := offset) (st := st) (by rw [hl]; simp; omega)
    rw [cut_length_eq] at this
    have e : l.drop pos = last := by rw [hl, ← hpos, List.drop_left]; rfl
    rw [e] at this
    exact this
  | cons x parts ih =>
    obtain ⟨gap, c⟩ := x
    obtain ⟨hu1, hu2⟩ := hu
    obtain ⟨hr1, hr2⟩ := hr
    obtain ⟨ho1, ho2⟩ := List.pairwise_cons.1 ho
    simp only at ho1
    have hc0 := h0 _ List.mem_cons_self
    simp only at hc0
    have hst : StandsAt c.before.items l ((pos + gap.length : Nat) : Int) := by
      refine ⟨front ++ gap, woven DiffClump.before parts last, ?_, ?_⟩
      · rw [hl]; simp [woven]
      · rw [List.length_append, hpos]
    have hlen : c.before.items.length ≤ l.length := by
      rw [hl]; simp [woven]; omega
    obtain ⟨d, hd⟩ : ∃ d : Int, ((pos + gap.length : Nat) : Int) = c.before.start + offset + d := ⟨(pos + gap.length : Nat) - (c.before.start + offset), by omega⟩
    have hdec : Decides p l pos offset c (parts.map (·.2)).head? (.apply d .cleanly) := by
      by_cases hd0 : d = 0
      · subst hd0
        refine .inl ⟨rfl, ?_⟩
        show StandsAt _ _ _
        rwa [hd, Int.add_zero] at hst
      · refine .inr ⟨hu1 _ (by omega), ?_, ?_, ?_, ?_, ?_⟩
        · rintro ⟨-, h⟩
          refine not_underflow DiffClump.before hc0 hlen ?_ h
          intro n hn
          exact ho1 n (List.mem_of_mem_head? hn)
        · by_cases h : 0 < d
          · right
            rw [head_map]
            exact ⟨h, by rw [← hd]; exact hr1 (by omega)⟩
          · left; omega
        · show StandsAt _ _ _
          rwa [← hd]
        · intro d' _ hlt
          exact hu1 _ (by omega)
        · intro hp _
          exact hu1 _ (by omega)
    have hplace : placeOf c.before (offset + d) .cleanly = pos + gap.length := by
      simp only [placeOf, WillApply.redn]
      omega
    have hcov : coveredBy c.before .cleanly = c.before.items.length := rfl
    have hoff : offset + d = ((pos + gap.length : Nat) : Int) - c.before.start := by omega
    have i := ih (front ++ gap ++ c.before.items) (pos + gap.length + c.before.items.length) (offset + d)
      (Decision.count st (.apply d .cleanly)) (by rw [hl]; simp [woven]) (by simp only [List.length_append]; omega) hu2 ho2
      (by
        intro y hy
        have := ho1 y.2 (List.mem_map_of_mem hy)
        omega)
      (by rw [hoff]; exact hr2)
    have := Patching.apply (st := st) (ls := c.after.items) hdec rfl (by
      rw [hplace, hcov, Nat.max_eq_right (by omega)]
      exact i)
    rw [hplace, ← bytesOf_append, ← bytesOf_append] at this
    have ecut : cut l pos (pos + gap.length) = gap := by
      rw [hl]
      simp [woven, cut, ← hpos]
    rw [ecut] at this
    have hle := shifts_le DiffClump.before (pos + gap.length + c.before.items.length) (offset + d) parts
    simp only [List.map_cons, woven, shifts, List.length_cons]
    rw [← hoff]
    by_cases hd0 : d = 0
    · subst hd0
      rw [if_pos (by omega)]
      simp only [Decision.count, and_self, if_true] at this
      rw [show st.clean + (parts.length + 1 - (0 + shifts DiffClump.before (pos + gap.length + c.before.items.length) (offset + 0) parts)) =
        st.clean + 1 + (parts.length - shifts DiffClump.before (pos + gap.length + c.before.items.length) (offset + 0) parts) by omega, Nat.zero_add]
      exact this
    · rw [if_neg (by omega)]
      simp only [Decision.count, hd0, false_and, if_false] at this
      rw [show parts.length + 1 - (1 + shifts DiffClump.before (pos + gap.length + c.before.items.length) (offset + d) parts) =
        parts.length - shifts DiffClump.before (pos + gap.length + c.before.items.length) (offset + d) parts by omega, ← Nat.add_assoc]
      exact this

/-- Conversely, a clump beyond the limit is not applied. -/
theorem withinSearch_of [Item T] {p : Profile} {l : List T} {parts : List (List T × DiffClump T)} {last front : List T} {pos : Nat}
    {offset : Int} {st st' : Statistics} {out : List UInt8} (hl : l = front ++ woven DiffClump.before parts last)
    (hpos : front.length = pos) (hu : OnlyThere DiffClump.before l pos parts)
    (h : Patching p l pos offset st (parts.map (·.2)) out (.ok st'))
    (he : st'.alreadyApplied + st'.alreadyAppliedFuzzy + st'.failed ≤ st.alreadyApplied + st.alreadyAppliedFuzzy + st.failed) :
    WithinSearch DiffClump.before l pos offset parts := by
  induction parts generalizing front pos offset st out with
  | nil => trivial
  | cons x parts ih =>
    obtain ⟨gap, c⟩ := x
    obtain ⟨hu1, hu2⟩ := hu
    have hst : StandsAt c.before.items l ((pos + gap.length : Nat) : Int) := by
      refine ⟨front ++ gap, woven DiffClump.before parts last, ?_, ?_⟩
      · rw [hl]; simp [woven]
      · rw [List.length_append, hpos]
    rw [List.map_cons] at h
    cases h with
    | apply hdec hwr hrest =>
      rename_i d w ls out
      have hfit : Fits c.before.items c.contextLengths l (c.before.start + offset + d) (some w) := by
        rcases hdec with ⟨rfl, h⟩ | ⟨-, -, -, h, -⟩
        · simpa [FitsHere] using h
        · exact h
      have hd : c.before.start + offset + d = ((pos + gap.length : Nat) : Int) := Decidable.byContradiction fun hne => by
        have := fits_unique (hu1 _ hne) hfit
        cases this
      rw [hd] at hfit
      have hw : some w = some .cleanly := fits_unique hfit hst
      injection hw with hw
      subst hw
      have hplace : placeOf c.before (offset + d) .cleanly = pos + gap.length := by
        simp only [placeOf, WillApply.redn]
        omega
      have hcov : coveredBy c.before .cleanly = c.before.items.length := rfl
      rw [hplace, hcov, Nat.max_eq_right (by omega), show offset + d = ((pos + gap.length : Nat) : Int) - c.before.start by omega] at hrest
      refine ⟨fun hlt => ?_, ih (front := front ++ gap ++ c.before.items) (by rw [hl]; simp [woven])
        (by simp only [List.length_append]; omega) hu2 hrest ?_⟩
      · rcases hdec with ⟨rfl, -⟩ | ⟨-, -, h, -⟩
        · omega
        · rw [head_map] at h
          simp only [InBounds] at h
          rw [hd] at h
          rcases h with h | h
          · omega
          · exact h.2
      · simp only [Decision.count]
        split <;> simpa using he
    | already _ h =>
      have := h.countsGrow rfl
      simp only [Decision.count] at this
      split at this <;> simp only at this <;> omega
    | failed _ h =>
      have := h.countsGrow rfl
      simp only [Decision.count] at this
      omega

theorem StandInOrder.disjoint {l : List T} {d : Int} {k : Nat} {cs : List (DiffClump T)} (h : StandInOrder l d k cs) :
    Disjoint DiffClump.before cs ∧ ∀ c ∈ cs, (k : Int) ≤ c.before.start + d := by
  induction cs generalizing k with
  | nil => exact ⟨.nil, by simp⟩
  | cons c cs ih =>
    obtain ⟨h1, h2, h3⟩ := h
    obtain ⟨i1, i2⟩ := ih h3
    refine ⟨.cons (fun n hn => ?_) i1, ?_⟩
    · have := i2 n hn
      omega
    · intro x hx
      rcases List.mem_cons.1 hx with rfl | hx
      · exact h1
      · have := i2 x hx
        omega

end

section

variable {T : Type} [DecidableEq T] [Item T] [LawfulItem T]

theorem woven_exact (q : Profile) (before after : List T)
    (parts : List (List T × DiffClump T)) (last : List T)
    (hd : IsDiff before after (parts.map (·.2)))
    (hsz : before.length + after.length + (woven DiffClump.before parts last).length ≤ maxLines)
    (hu : OnlyThere DiffClump.before (woven DiffClump.before parts last) 0 parts) :
    ((applyInto q (parts.map (·.2)) (woven DiffClump.before parts last) false).run =
      (.ok { fuzzy := shifts DiffClump.before 0 0 parts, clean := parts.length - shifts DiffClump.before 0 0 parts }, bytesOf (woven DiffClump.after parts last)) ↔
      WithinSearch DiffClump.before (woven DiffClump.before parts last) 0 0 parts) ∧
    ∀ st out, (applyInto q (parts.map (·.2)) (woven DiffClump.before parts last) false).run = (.ok st, out) →
      st.alreadyApplied = 0 → st.alreadyAppliedFuzzy = 0 → st.failed = 0 → out = bytesOf (woven DiffClump.after parts last) := by
  have hw := hd.wellFormed (by omega) (by omega)
  have hwt := hd.weight
  obtain ⟨skip, hs⟩ := hd.diffed
  have hdis := hs.standInOrder.disjoint.1
  simp only [maxLines] at hsz
  have href := C57_refines q (woven DiffClump.before parts last) _ hw (by simp only [sizeLimit]; omega)
  have hto : WithinSearch DiffClump.before (woven DiffClump.before parts last) 0 0 parts →
      (applyInto q (parts.map (·.2)) (woven DiffClump.before parts last) false).run =
      (.ok { fuzzy := shifts DiffClump.before 0 0 parts, clean := parts.length - shifts DiffClump.before 0 0 parts }, bytesOf (woven DiffClump.after parts last)) := by
    intro hr
    rw [href]
    have := patching_woven q _ parts last [] 0 0 {} rfl rfl hu hdis (fun x _ => by omega) hr
    simpa using this
  refine ⟨⟨fun hrun => ?_, hto⟩, ?_⟩
  · exact withinSearch_of (front := []) rfl rfl hu ((href _ _).1 hrun) (Nat.le_refl _)
  · intro st out hrun e1 e2 e3
    have hr := withinSearch_of (front := []) rfl rfl hu ((href _ _).1 hrun) (by rw [e1, e2, e3]; exact Nat.zero_le _)
    have := hto hr
    rw [hrun] at this
    exact (Prod.mk.injEq .. ▸ this).2

/-- A patch is applied to a file in which the old lines of all clumps are still there, in order, and all between them may have been
changed. No clump fits anywhere else. Then all clumps are applied, giving the file with the old lines of every clump replaced by its
new lines, if and only if every clump that has moved down stands before the limit of the search for it. -/
theorem C137_exact (p q : Profile) (before after : List T) (context : Nat) (hctx : context ≤ 255)
    (parts : List (List T × DiffClump T)) (last : List T)
    (h : diffClumps p before after context = .ok (parts.map (·.2)))
    (hsz : before.length + after.length + (woven DiffClump.before parts last).length ≤ maxLines)
    (hu : OnlyThere DiffClump.before (woven DiffClump.before parts last) 0 parts) :
    ((applyInto q (parts.map (·.2)) (woven DiffClump.before parts last) false).run =
      (.ok { fuzzy := shifts DiffClump.before 0 0 parts, clean := parts.length - shifts DiffClump.before 0 0 parts }, bytesOf (woven DiffClump.after parts last)) ↔
      WithinSearch DiffClump.before (woven DiffClump.before parts last) 0 0 parts) ∧
    ∀ st out, (applyInto q (parts.map (·.2)) (woven DiffClump.before parts last) false).run = (.ok st, out) →
      st.alreadyApplied = 0 → st.alreadyAppliedFuzzy = 0 → st.failed = 0 → out = bytesOf (woven DiffClump.after parts last) :=
  woven_exact q before after parts last (diffClumps_full hctx h).1 hsz hu

omit [Item T] [LawfulItem T] in
theorem once_unique {l : List T} {x : T} (h : l.count x = 1) {a b : Nat} (ha : l[a]? = some x) (hb : l[b]? = some x) : a = b := by
  have key : ∀ a b : Nat, a < b → l[a]? = some x → l[b]? = some x → 2 ≤ l.count x := by
    intro a b hab ha hb
    rw [← List.take_append_drop b l, List.count_append]
    have h1 : x ∈ l.take b := by
      rw [List.mem_iff_getElem?]
      exact ⟨a, by rw [List.getElem?_take_of_lt hab, ha]⟩
    have h2 : x ∈ l.drop b := by
      rw [List.mem_iff_getElem?]
      exact ⟨0, by rw [List.getElem?_drop, Nat.add_zero, hb]⟩
    have := List.count_pos_iff.2 h1
    have := List.count_pos_iff.2 h2
    omega
  rcases Nat.lt_trichotomy a b with hlt | rfl | hlt
  · have := key a b hlt ha hb; omega
  · rfl
  · have := key b a hlt hb ha; omega

omit [DecidableEq T] [Item T] [LawfulItem T] in
theorem trim_get {r : Nat × Nat} {ls : List T} {i : Nat} {x : T} : (trim r ls)[i]? = some x ↔
    r.1 + i < ls.length - r.2 ∧ ls[r.1 + i]? = some x := by
  simp only [trim, List.getElem?_drop, List.getElem?_take]
  split
  · next h => simp [h]
  · next h => simp [h]

omit [DecidableEq T] [Item T] [LawfulItem T] in
theorem StandsAt.get {ls l : List T} {pos : Int} (h : StandsAt ls l pos) {i : Nat} {x : T} (hx : ls[i]? = some x) :
    ∃ k : Nat, (k : Int) = pos + i ∧ l[k]? = some x := by
  obtain ⟨pre, post, rfl, rfl⟩ := h
  refine ⟨pre.length + i, by omega, ?_⟩
  rw [List.append_assoc, List.getElem?_append_right (by omega), Nat.add_sub_cancel_left,
    List.getElem?_append_left (List.getElem?_eq_some_iff.1 hx).1, hx]

omit [Item T] [LawfulItem T] in
/-- A clump with a changed line that is in the file only once fits at no other place. -/
theorem fits_once {old l : List T} {ctx : Nat × Nat} {place pos : Int} {x : T} (hs : StandsAt old l place) (hx : x ∈ trim ctx old)
    (h1 : l.count x = 1) (hne : pos ≠ place) : Fits old ctx l pos none := by
  obtain ⟨i, hi⟩ := List.mem_iff_getElem?.1 hx
  obtain ⟨hi1, hi2⟩ := trim_get.1 hi
  obtain ⟨k, hk, hkx⟩ := hs.get hi2
  have key : ∀ r : Nat × Nat, r.1 ≤ ctx.1 → r.2 ≤ ctx.2 → ¬ StandsAt (trim r old) l (pos + r.1) := by
    intro r hr1 hr2 h
    obtain ⟨k', hk', hkx'⟩ := h.get (i := ctx.1 - r.1 + i) (x := x) (trim_get.2 ⟨by omega, by
      rw [show r.1 + (ctx.1 - r.1 + i) = ctx.1 + i by omega, hi2]⟩)
    have := once_unique h1 hkx hkx'
    omega
  refine ⟨fun h => key (0, 0) (Nat.zero_le _) (Nat.zero_le _) ?_, fun k _ _ => key _ (Nat.min_le_right _ _) (Nat.min_le_right _ _)⟩
  have e : trim (0, 0) old = old := by simp [trim]
  rw [e]
  simpa using h

/-- The clump changes a line that is in the file only once. -/
def ChangesUnique {T : Type} [DecidableEq T] (l : List T) (c : DiffClump T) : Prop :=
  ∃ y ∈ trim c.contextLengths c.before.items, l.count y = 1

instance {T : Type} [DecidableEq T] (l : List T) (c : DiffClump T) : Decidable (ChangesUnique l c) := by
  unfold ChangesUnique
  infer_instance

omit [Item T] [LawfulItem T] in
theorem onlyThere_of_once {l : List T} {parts : List (List T × DiffClump T)} {last front : List T} {pos : Nat}
    (hl : l = front ++ woven DiffClump.before parts last) (hpos : front.length = pos)
    (h : ∀ x ∈ parts, ChangesUnique l x.2) : OnlyThere DiffClump.before l pos parts := by
  induction parts generalizing front pos with
  | nil => trivial
  | cons x parts ih =>
    obtain ⟨gap, c⟩ := x
    refine ⟨fun z hz => ?_, ih (front := front ++ gap ++ c.before.items) (by rw [hl]; simp [woven])
      (by simp only [List.length_append]; omega) fun x hx => h x (List.mem_cons_of_mem _ hx)⟩
    obtain ⟨y, hy, hc⟩ := h _ List.mem_cons_self
    refine fits_once (place := ((pos + gap.length : Nat) : Int)) ?_ hy hc hz
    refine ⟨front ++ gap, woven DiffClump.before parts last, ?_, ?_⟩
    · rw [hl]; simp [woven]
    · rw [List.length_append, hpos]

/-- Every clump changes a line that is in the file only once, and every clump that has moved down stands before the limit of the
search for it: all clumps are applied. -/
theorem C137_once (p q : Profile) (before after : List T) (context : Nat) (hctx : context ≤ 255)
    (parts : List (List T × DiffClump T)) (last : List T)
    (h : diffClumps p before after context = .ok (parts.map (·.2)))
    (hsz : before.length + after.length + (woven DiffClump.before parts last).length ≤ maxLines)
    (hone : ∀ x ∈ parts, ChangesUnique (woven DiffClump.before parts last) x.2)
    (hr : WithinSearch DiffClump.before (woven DiffClump.before parts last) 0 0 parts) :
    (applyInto q (parts.map (·.2)) (woven DiffClump.before parts last) false).run =
      (.ok { fuzzy := shifts DiffClump.before 0 0 parts, clean := parts.length - shifts DiffClump.before 0 0 parts }, bytesOf (woven DiffClump.after parts last)) :=
  (C137_exact p q before after context hctx parts last h hsz (onlyThere_of_once (front := []) rfl rfl hone)).1.2 hr

omit [DecidableEq T] [Item T] [LawfulItem T] in
theorem swap_parts (l : List T) (parts : List (List T × DiffClump T)) (last : List T) (pos : Nat) (offset : Int) :
    let swapped := parts.map fun x => (x.1, x.2.swap)
    swapped.map (·.2) = (parts.map (·.2)).map DiffClump.swap ∧
    woven DiffClump.before swapped last = woven DiffClump.after parts last ∧
    woven DiffClump.after swapped last = woven DiffClump.before parts last ∧
    shifts DiffClump.before pos offset swapped = shifts DiffClump.after pos offset parts ∧
    (OnlyThere DiffClump.before l pos swapped ↔ OnlyThere DiffClump.after l pos parts) ∧
    (WithinSearch DiffClump.before l pos offset swapped ↔ WithinSearch DiffClump.after l pos offset parts) := by
  induction parts generalizing pos offset with
  | nil => simp [woven, shifts, OnlyThere, WithinSearch]
  | cons x parts ih =>
    obtain ⟨gap, c⟩ := x
    obtain ⟨i1, i2, i3, i4, i5, i6⟩ := ih (pos + gap.length + c.after.items.length) (((pos + gap.length : Nat) : Int) - c.after.start)
    refine ⟨by rw [List.map_cons, List.map_cons, i1]; rfl, by rw [List.map_cons, woven, i2]; rfl, by rw [List.map_cons, woven, i3]; rfl,
      ?_, ?_, ?_⟩
    · simp only [List.map_cons, shifts, DiffClump.swap] at i4 ⊢
      rw [i4]
    · simp only [List.map_cons, OnlyThere, DiffClump.swap] at i5 ⊢
      rw [i5]
    · simp only [List.map_cons, WithinSearch] at i6 ⊢
      have e : (parts.map fun x => (x.1, x.2.swap)).head?.map (fun x => x.2.before) = parts.head?.map fun x => x.2.after := by
        cases parts <;> rfl
      rw [e]
      exact and_congr Iff.rfl i6

/-- The same for taking a patch back: the file has the new lines of all clumps. -/
theorem C137_reverse (p q : Profile) (before after : List T) (context : Nat) (hctx : context ≤ 255)
    (parts : List (List T × DiffClump T)) (last : List T)
    (h : diffClumps p before after context = .ok (parts.map (·.2)))
    (hsz : before.length + after.length + (woven DiffClump.after parts last).length ≤ maxLines)
    (hu : OnlyThere DiffClump.after (woven DiffClump.after parts last) 0 parts) :
    (applyInto q (parts.map (·.2)) (woven DiffClump.after parts last) true).run =
      (.ok { fuzzy := shifts DiffClump.after 0 0 parts, clean := parts.length - shifts DiffClump.after 0 0 parts },
        bytesOf (woven DiffClump.before parts last)) ↔
      WithinSearch DiffClump.after (woven DiffClump.after parts last) 0 0 parts := by
  obtain ⟨e1, e2, e3, e4, e5, e6⟩ := swap_parts (woven DiffClump.after parts last) parts last 0 0
  have hd := (diffClumps_full hctx h).1.swap
  rw [← e1] at hd
  have := (woven_exact q after before (parts.map fun x => (x.1, x.2.swap)) last hd (by rw [e2]; omega) (by rw [e2, e5]; exact hu)).1
  rw [e1, e2, e3, e4, e6, List.length_map, Swap.applyAll] at this
  exact this

/-- The gaps have become shorter or are as long as they were: the clumps have not moved down. -/
def NotDown : Nat → Int → List (List T × DiffClump T) → Prop
  | _, _, [] => True
  | pos, offset, (gap, c) :: parts => ((pos + gap.length : Nat) : Int) ≤ c.before.start + offset ∧
      NotDown (pos + gap.length + c.before.items.length) ((pos + gap.length : Nat) - c.before.start) parts

omit [DecidableEq T] [Item T] [LawfulItem T] in
theorem withinSearch_notDown {l : List T} {pos : Nat} {offset : Int} {parts : List (List T × DiffClump T)} (h : NotDown pos offset parts) :
    WithinSearch DiffClump.before l pos offset parts := by
  induction parts generalizing pos offset with
  | nil => trivial
  | cons x parts ih =>
    obtain ⟨h1, h2⟩ := h
    exact ⟨fun h => by omega, ih h2⟩

/-- If lines were only deleted or replaced between the clumps, there is no limit. -/
theorem C137_shorter (p q : Profile) (before after : List T) (context : Nat) (hctx : context ≤ 255)
    (parts : List (List T × DiffClump T)) (last : List T)
    (h : diffClumps p before after context = .ok (parts.map (·.2)))
    (hsz : before.length + after.length + (woven DiffClump.before parts last).length ≤ maxLines)
    (hone : ∀ x ∈ parts, ChangesUnique (woven DiffClump.before parts last) x.2)
    (hn : NotDown 0 0 parts) :
    (applyInto q (parts.map (·.2)) (woven DiffClump.before parts last) false).run =
      (.ok { fuzzy := shifts DiffClump.before 0 0 parts, clean := parts.length - shifts DiffClump.before 0 0 parts }, bytesOf (woven DiffClump.after parts last)) :=
  C137_once p q before after context hctx parts last h hsz hone (withinSearch_notDown hn)

end

/-- A clump in a file with other lines around it. -/
def wovenParts : List (List Str × DiffClump Str) :=
  [(letters ['a', 'N', 'b'], ⟨(1, 1), ⟨2, letters ['c', 'd', 'e']⟩, ⟨2, letters ['c', 'X', 'Y', 'e']⟩⟩),
   ([], ⟨(1, 1), ⟨6, letters ['g', 'h', 'i']⟩, ⟨7, letters ['g', 'Z', 'W', 'i']⟩⟩)]

/-- The same with many lines put in front. -/
def wovenFar : List (List Str × DiffClump Str) :=
  [(letters ['a', 'N', 'N', 'N', 'N', 'N', 'b'], ⟨(1, 1), ⟨2, letters ['c', 'd', 'e']⟩, ⟨2, letters ['c', 'X', 'Y', 'e']⟩⟩),
   ([], ⟨(1, 1), ⟨6, letters ['g', 'h', 'i']⟩, ⟨7, letters ['g', 'Z', 'W', 'i']⟩⟩)]

theorem woven_diff : diffClumps .debug (letters ['a', 'b', 'c', 'd', 'e', 'f', 'g', 'h', 'i', 'j'])
    (letters ['a', 'b', 'c', 'X', 'Y', 'e', 'f', 'g', 'Z', 'W', 'i', 'j']) 1 = .ok (wovenParts.map (·.2)) := by decide +kernel

theorem wovenParts_once : ∀ x ∈ wovenParts, ChangesUnique (woven DiffClump.before wovenParts (letters ['j', 'k'])) x.2 := by decide +kernel

theorem wovenFar_once : ∀ x ∈ wovenFar, ChangesUnique (woven DiffClump.before wovenFar (letters ['j', 'k'])) x.2 := by decide +kernel

theorem wovenParts_within : WithinSearch DiffClump.before (woven DiffClump.before wovenParts (letters ['j', 'k'])) 0 0 wovenParts :=
  ⟨by decide +kernel, by decide +kernel, trivial⟩

example := C137_exact .debug .release _ _ 1 (by decide) wovenParts (letters ['j', 'k']) woven_diff (by decide +kernel)
  (onlyThere_of_once (front := []) rfl rfl wovenParts_once)
example := C137_once .debug .release _ _ 1 (by decide) wovenParts (letters ['j', 'k']) woven_diff (by decide +kernel) wovenParts_once
  wovenParts_within
example := C137_reverse .debug .release _ _ 1 (by decide) wovenParts (letters ['j', 'k']) woven_diff (by decide +kernel)
  ((swap_parts _ wovenParts (letters ['j', 'k']) 0 0).2.2.2.2.1.1 (onlyThere_of_once (last := letters ['j', 'k']) (front := [])
    (swap_parts [] wovenParts (letters ['j', 'k']) 0 0).2.1.symm rfl (by decide +kernel)))
example := C137_shorter .debug .debug (letters ['a', 'b', 'c', 'd', 'e', 'f', 'g', 'h', 'i', 'j'])
  (letters ['a', 'b', 'c', 'X', 'Y', 'e', 'f', 'g', 'Z', 'W', 'i', 'j']) 1 (by decide)
  [(letters ['a'], ⟨(1, 1), ⟨2, letters ['c', 'd', 'e']⟩, ⟨2, letters ['c', 'X', 'Y', 'e']⟩⟩),
   ([], ⟨(1, 1), ⟨6, letters ['g', 'h', 'i']⟩, ⟨7, letters ['g', 'Z', 'W', 'i']⟩⟩)] [] (by decide +kernel) (by decide +kernel)
  (by decide +kernel) ⟨by decide, by decide, trivial⟩

/-- What one may expect: clumps that change a line which is in the file only once are found. -/
def C137_statement : Prop :=
  ∀ (p q : Profile) (before after : List Str) (context : Nat) (parts : List (List Str × DiffClump Str)) (last : List Str),
    context ≤ 255 → diffClumps p before after context = .ok (parts.map (·.2)) →
    (∀ x ∈ parts, ChangesUnique (woven DiffClump.before parts last) x.2) →
    (applyInto q (parts.map (·.2)) (woven DiffClump.before parts last) false).run.2 =
      bytesOf (woven DiffClump.after parts last)

/-- That is not so: when five lines are put before the first clump it is not found, because the second one is expected there. -/
theorem C137_refuted : ¬ C137_statement := by
  intro h
  have hx := h .debug .release _ _ 1 wovenFar (letters ['j', 'k']) (by decide) woven_diff wovenFar_once
  revert hx
  decide +kernel

/-- In the program: the file is patched, and the exit status is 0. -/
theorem C137_program (p q : Profile) (temp patch target : Path) (w : World) (hf : w.faults = []) (d : TextChangeDiff)
    (hp : HoldsDiff w.fs patch (.textChange d)) (htg : d.beforePath = target) (hfree : w.fs.node (w.fs.entry temp) = none)
    (before after : List Str) (context : Nat) (hctx : context ≤ 255) (parts : List (List Str × DiffClump Str)) (last : List Str)
    (hd : d.clumps = parts.map (·.2)) (h : diffClumps p before after context = .ok d.clumps)
    (s : Str) (hold : w.fs.contentAt target = some ⟨s.bytes, false⟩)
    (hs : splitInclusive s = woven DiffClump.before parts last)
    (hsz : before.length + after.length + (splitInclusive s).length ≤ maxLines)
    (hone : ∀ x ∈ parts, ChangesUnique (splitInclusive s) x.2) (hr : WithinSearch DiffClump.before (splitInclusive s) 0 0 parts) :
    (pwPatch q temp patch false).run w = (.exited 0,
      { w with fs := w.fs.set (w.fs.entry target) (some (.file (bytesOf (woven DiffClump.after parts last)))) }) := by
  subst htg
  refine C46_normal q temp patch d.beforePath false w (.textChange d) hp rfl hf hfree hold
    ⟨s, { fuzzy := shifts DiffClump.before 0 0 parts, clean := parts.length - shifts DiffClump.before 0 0 parts }, rfl, ?_⟩
  rw [hs] at hsz hone hr ⊢
  rw [hd] at h ⊢
  exact C137_once p q before after context hctx parts last h hsz hone hr

/-- The situation: `A` was changed in between, `C` holds the patch. -/
example (q : Profile) : ∃ w r, (pwPatch q [84] [67] false).run w = (.exited 0, r) ∧
    w.fs.contentAt [65] = some ⟨bytesOf (letters ['a', 'N', 'b', 'c', 'd', 'e', 'g', 'h', 'i', 'j', 'k']), false⟩ ∧
    r.fs.contentAt [65] = some ⟨bytesOf (letters ['a', 'N', 'b', 'c', 'X', 'Y', 'e', 'g', 'Z', 'W', 'i', 'j', 'k']), false⟩ := by
  obtain ⟨e1, e2, e3, e3', e4, e5, e6, e6', e7, e8⟩ := FS.ofFiles_two
    (bytesOf (letters ['a', 'N', 'b', 'c', 'd', 'e', 'g', 'h', 'i', 'j', 'k']))
    (Diff.textChange ⟨[65], [66], wovenParts.map (·.2)⟩).fileContent
  generalize FS.ofFiles [([65], _), ([67], _)] = fs at *
  have h := C137_program .debug q [84] [67] [65] ⟨fs, [], []⟩ rfl ⟨[65], [66], wovenParts.map (·.2)⟩ ?_ rfl ?_
    _ _ 1 (by decide) wovenParts (letters ['j', 'k']) rfl woven_diff
    (letters ['a', 'N', 'b', 'c', 'd', 'e', 'g', 'h', 'i', 'j', 'k']).flatten ?_ (by decide +kernel) (by decide +kernel) (by decide +kernel) ?_
  · refine ⟨_, _, h, e7, ?_⟩
    exact FS.contentAt_of_file (by simp; rfl)
  · refine holdsDiff_of_file ?_ ?_ e8
    · intro c hc
      simp only [wovenParts, List.map_cons, List.map_nil, List.mem_cons, List.not_mem_nil, or_false] at hc
      rcases hc with rfl | rfl <;> simp [DiffClump.InRange, wordSize]
    · intro path h
      simp only [Diff.paths, List.mem_cons, List.not_mem_nil, or_false] at h
      rcases h with rfl | rfl
      · exact ⟨['A'], by decide⟩
      · exact ⟨['B'], by decide⟩
  · show fs.node (fs.entry [84]) = none
    rw [e3, e6']
  · exact e7.trans (by decide +kernel)
  · have e : splitInclusive (letters ['a', 'N', 'b', 'c', 'd', 'e', 'g', 'h', 'i', 'j', 'k']).flatten =
        woven DiffClump.before wovenParts (letters ['j', 'k']) := by decide +kernel
    rw [e]
    exact wovenParts_within

end PwDiff
