import Verif.Props.Deleting

/-! # C135: lines replaced in place -/

namespace PwDiff

/-- Which lines are taken as unchanged when lines are replaced in place, from a list that says which lines are equal. `run` is the
number of equal lines that stand just before; they count as one if the replaced line before them was taken as unchanged (`joined`). A
replaced line is taken as unchanged if the lines that follow it up to the next replaced line are some, but no more than `run`. -/
def taken : Nat → Bool → List Bool → List Bool
  | _, _, [] => []
  | run, joined, true :: rest => true :: taken (if joined then 1 else run + 1) joined rest
  | run, _, false :: rest =>
    if 0 < (rest.takeWhile id).length ∧ (rest.takeWhile id).length ≤ run then true :: taken 1 true rest
    else false :: taken 0 false rest

/-- All runs of equal lines are shorter than `n`, the first of them when it has `k` lines more, and the last line is not equal. -/
def RunsBelow (n : Nat) : Nat → List Bool → Prop
  | k, [] => k = 0
  | k, true :: rest => RunsBelow n (k + 1) rest
  | k, false :: rest => k < n ∧ RunsBelow n 0 rest

theorem taken_length (run : Nat) (joined : Bool) (l : List Bool) : (taken run joined l).length = l.length := by
  induction l generalizing run joined with
  | nil => rfl
  | cons x l ih =>
    cases x with
    | true => simp only [taken, List.length_cons, ih]
    | false => simp only [taken]; split <;> simp only [List.length_cons, ih]

theorem taken_run (n run : Nat) (l : List Bool) : taken run false (List.replicate n true ++ l) =
    List.replicate n true ++ taken (run + n) false l := by
  induction n generalizing run with
  | zero => rfl
  | succ n ih =>
    simp only [List.replicate_succ, List.cons_append, taken, Bool.false_eq_true, if_false, ih]
    rw [show run + 1 + n = run + (n + 1) by omega]

theorem taken_joined (n : Nat) (l : List Bool) : taken 1 true (List.replicate n true ++ l) =
    List.replicate n true ++ taken 1 true l := by
  induction n with
  | zero => rfl
  | succ n ih => simp only [List.replicate_succ, List.cons_append, taken, if_true, ih]

theorem lead_append (n k : Nat) (L l : List Bool) (h : RunsBelow n k L) (hne : k ≠ 0 ∨ L ≠ []) :
    ((L ++ l).takeWhile id).length = (L.takeWhile id).length := by
  induction L generalizing k with
  | nil => exact absurd h (by rcases hne with h | h; exact h; exact absurd rfl h)
  | cons x L ih =>
    cases x with
    | true => simp only [List.cons_append, List.takeWhile_cons, id, if_true, List.length_cons, ih (k + 1) h (.inl (by omega))]
    | false => simp

theorem taken_append (n : Nat) (L R : List Bool) (run k : Nat) (joined : Bool) (h : RunsBelow n k L)
    (hi : (run ≤ k ∧ (k = 0 → joined = false)) ∨ (run = 1 ∧ k = 0 ∧ joined = true ∧ L ≠ [] ∧ (L.takeWhile id).length ≠ 0)) :
    taken run joined (L ++ (List.replicate n true ++ R)) = taken run joined L ++ taken 0 false (List.replicate n true ++ R) := by
  induction L generalizing run k joined with
  | nil =>
    obtain rfl : k = 0 := h
    rcases hi with ⟨h1, h2⟩ | ⟨-, -, -, h, -⟩
    · rw [h2 rfl, show run = 0 by omega]; rfl
    · exact absurd rfl h
  | cons x L ih =>
    cases x with
    | true =>
      simp only [List.cons_append, taken]
      have : (if joined = true then 1 else run + 1) ≤ k + 1 := by
        rcases hi with ⟨hi, -⟩ | ⟨-, -, hi, -⟩
        · split <;> omega
        · rw [if_pos hi]; omega
      rw [ih _ (k + 1) _ h (.inl ⟨this, by omega⟩)]
    | false =>
      obtain ⟨h1, h2⟩ := h
      have hrun : run < n := by
        rcases hi with ⟨h, -⟩ | ⟨-, -, -, -, h⟩
        · omega
        · simp at h
      simp only [List.cons_append, taken]
      by_cases hL : L = []
      · subst hL
        have : n ≤ ((List.replicate n true ++ R).takeWhile id).length := by
          rw [List.takeWhile_append_of_pos (by simp)]; simp
        rw [List.nil_append, if_neg (by omega), if_neg (by simp)]
        rfl
      · rw [lead_append n 0 L _ h2 (.inr hL)]
        split
        · next hc => rw [ih 1 0 true h2 (.inr ⟨rfl, rfl, rfl, hL, by omega⟩)]; rfl
        · rw [ih 0 0 false h2 (.inl ⟨by omega, fun _ => rfl⟩)]; rfl

/-- What the search takes as one block, and what is left on both sides. -/
theorem taken_block (n e : Nat) (L R : List Bool) (hL : RunsBelow n 0 L) (hR : R = [] ∧ e = 0 ∨
    ∃ R', R = false :: R' ∧ (R'.takeWhile id).length = e ∧ e ≤ n) :
    taken 0 false (L ++ (List.replicate n true ++ R)) =
      taken 0 false L ++ (List.replicate (n + e) true ++ taken 0 false (R.drop e)) := by
  rw [taken_append n L R 0 0 false hL (.inl ⟨by omega, fun _ => rfl⟩), taken_run]
  congr 1
  rw [← List.replicate_append_replicate, List.append_assoc]
  congr 1
  rcases hR with ⟨rfl, rfl⟩ | ⟨R', rfl, rfl, he⟩
  · rfl
  · obtain ⟨S, hS, hh⟩ : ∃ S, R' = List.replicate (R'.takeWhile id).length true ++ S ∧ ∀ S', S ≠ true :: S' := by
      refine ⟨R'.dropWhile id, ?_, ?_⟩
      · conv => lhs; rw [← List.takeWhile_append_dropWhile (p := id) (l := R')]
        congr 1
        apply List.eq_replicate_iff.2
        refine ⟨rfl, fun x hx => ?_⟩
        have := List.all_takeWhile (p := id) (l := R')
        exact (List.all_eq_true.1 this) x hx
      · intro S' h
        have := List.head?_dropWhile_not id R'
        rw [h] at this
        simp at this
    simp only [taken]
    by_cases hm : (R'.takeWhile id).length = 0
    · rw [if_neg (by omega), hm, List.drop_zero]
      simp only [taken]
      rw [if_neg (by omega)]
      rfl
    · rw [if_pos (by omega)]
      obtain ⟨m, hm⟩ := Nat.exists_eq_succ_of_ne_zero hm
      rw [hm] at hS ⊢
      have hd : (List.replicate m.succ true ++ S).drop m = true :: S := by
        rw [show List.replicate m.succ true = List.replicate m true ++ [true] from List.replicate_succ', List.append_assoc,
          List.drop_left' (by simp)]
        rfl
      rw [hS, taken_joined, List.drop_succ_cons, hd]
      have : taken 1 true S = taken 1 false S := by
        cases S with
        | nil => rfl
        | cons x S => cases x with
          | true => exact absurd rfl (hh S)
          | false => rfl
      rw [this]
      show true :: (List.replicate m.succ true ++ taken 1 false S) = List.replicate m.succ true ++ ([true] ++ taken 1 false S)
      rw [← List.append_assoc, ← List.replicate_succ', List.replicate_succ]
      rfl

theorem taken_none (l : List Bool) (h : ∀ t : Nat, l[t]? ≠ some true) (t : Nat) : (taken 0 false l)[t]? ≠ some true := by
  induction l generalizing t with
  | nil => simp [taken]
  | cons x l ih =>
    cases x with
    | true => exact absurd rfl (h 0)
    | false =>
      simp only [taken]
      rw [if_neg (by omega)]
      cases t with
      | zero => simp
      | succ t => exact ih (fun t => h (t + 1)) t

theorem runsBelow_of (n k : Nat) (l : List Bool)
    (h : ∀ s, s + n ≤ k + l.length → ∃ t < n, (List.replicate k true ++ l)[s + t]? = some false)
    (hl : (List.replicate k true ++ l).getLast? ≠ some true) : RunsBelow n k l := by
  induction l generalizing k with
  | nil =>
    cases k with
    | zero => rfl
    | succ k =>
      rw [List.append_nil, List.getLast?_replicate, if_neg (by omega)] at hl
      exact absurd rfl hl
  | cons x l ih =>
    cases x with
    | true =>
      have e : List.replicate k true ++ true :: l = List.replicate (k + 1) true ++ l := by
        rw [List.replicate_succ', List.append_assoc]; rfl
      rw [e] at h hl
      exact ih (k + 1) (fun s hs => h s (by simp only [List.length_cons]; omega)) hl
    | false =>
      refine ⟨?_, ih 0 ?_ ?_⟩
      · apply Classical.byContradiction
        intro hk
        obtain ⟨t, ht, e⟩ := h 0 (by simp only [List.length_cons]; omega)
        rw [List.getElem?_append_left (by simp; omega), List.getElem?_replicate, if_pos (by omega)] at e
        cases e
      · intro s hs
        obtain ⟨t, ht, e⟩ := h (k + 1 + s) (by simp only [List.length_cons]; omega)
        refine ⟨t, ht, ?_⟩
        rw [List.getElem?_append_right (by simp; omega), List.length_replicate, show k + 1 + s + t - k = s + t + 1 by omega,
          List.getElem?_cons_succ] at e
        exact e
      · intro e
        apply hl
        rw [List.getLast?_append, List.getLast?_cons, show l.getLast? = some true from e]
        rfl

theorem lead_eq (l : List Bool) (e : Nat) (h : ∀ t < e, l[t]? = some true) (hn : l[e]? ≠ some true) :
    (l.takeWhile id).length = e := by
  induction l generalizing e with
  | nil =>
    cases e with
    | zero => rfl
    | succ e => have := h 0 (by omega); simp at this
  | cons x l ih =>
    cases e with
    | zero =>
      cases x with
      | true => exact absurd rfl hn
      | false => simp
    | succ e =>
      have := h 0 (by omega)
      simp only [List.getElem?_cons_zero, Option.some.injEq] at this
      subst this
      simp only [List.takeWhile_cons, id, if_true, List.length_cons]
      rw [ih e (fun t ht => h (t + 1) (by omega)) hn]

theorem taken_decomp {T : Type} {before after : List T} (hd : ∀ j i, Hit before after j i → j = i) {l r l' r' : Nat}
    {d : List CommonSubsequence} (h : Decomp before after l r l' r' d) (hl : l' = l) (hr : r' = r) (F : List Bool)
    (hF : F.length = r - l) (hh : ∀ t : Nat, F[t]? = some true ↔ t < r - l ∧ Hit before after (l + t) (l + t)) (t : Nat) :
    Covered d (l + t) (l + t) ↔ (taken 0 false F)[t]? = some true := by
  induction h generalizing F t with
  | @leaf bs be as ae h1 h2 hno =>
    subst hl hr
    have : ∀ t : Nat, F[t]? ≠ some true := fun t e => by
      have := (hh t).1 e
      exact hno _ _ (by omega) (by omega) (by omega) (by omega) this.2
    exact ⟨fun ⟨c, hc, _⟩ => by simp at hc, fun e => absurd e (taken_none F this t)⟩
  | @node bs be as ae c dl dr hc hdl hdr ihl ihr =>
    subst hl hr
    obtain ⟨n, e, h1, h2, h3⟩ := hc
    obtain ⟨b, a, m⟩ := c
    obtain rfl : b = a := hd _ _ (h1.run 0 h1.pos)
    have i1 := h1.inOld
    have i2 := h1.pos
    have hin := h2.inside
    have hlong := h1.longest
    have hfirst := h1.first
    have hstop := h2.stop
    simp only at *
    subst h3
    have hfalse : ∀ t : Nat, t < ae - as → ¬ Hit before after (as + t) (as + t) → F[t]? = some false := by
      intro t ht hn
      have := hh t
      rw [List.getElem?_eq_getElem (by omega)] at this ⊢
      cases hx : F[t] with
      | false => rfl
      | true => rw [hx] at this; exact absurd (this.1 rfl).2 hn
    have hsplit : F = F.take (b - as) ++ (List.replicate n true ++ F.drop (b - as + n)) := by
      apply List.ext_getElem?
      intro u
      by_cases hu : u < b - as
      · rw [List.getElem?_append_left (by rw [List.length_take]; omega), List.getElem?_take_of_lt hu]
      · rw [List.getElem?_append_right (by rw [List.length_take]; omega), List.length_take, Nat.min_eq_left (by omega)]
        by_cases hu' : u < b - as + n
        · rw [List.getElem?_append_left (by rw [List.length_replicate]; omega), List.getElem?_replicate, if_pos (by omega), hh]
          refine ⟨by omega, ?_⟩
          have := h1.run (u - (b - as)) (by omega)
          rwa [show b + (u - (b - as)) = as + u by omega] at this
        · rw [List.getElem?_append_right (by rw [List.length_replicate]; omega), List.length_replicate, List.getElem?_drop]
          congr 1; omega
    have hL : RunsBelow n 0 (F.take (b - as)) := by
      apply runsBelow_of
      · intro s hs
        rw [List.length_take, Nat.min_eq_left (by omega)] at hs
        apply Classical.byContradiction
        intro hno
        have hrun : CommonRun before after (as + s) (as + s) n := by
          intro t ht
          apply Classical.byContradiction
          intro hn
          refine hno ⟨t, ht, ?_⟩
          rw [List.replicate_zero, List.nil_append, List.getElem?_take_of_lt (by omega)]
          exact hfalse _ (by omega) (by rwa [← Nat.add_assoc])
        have := (hfirst (as + s) (as + s) (by omega) (by omega) (by omega) (by omega) hrun).1
        omega
      · rw [List.replicate_zero, List.nil_append, List.getLast?_eq_getElem?, List.length_take, Nat.min_eq_left (by omega)]
        intro hlast
        have hpos : 0 < b - as := by
          apply Classical.byContradiction
          intro h0
          rw [show b - as = 0 by omega] at hlast
          simp at hlast
        rw [List.getElem?_take_of_lt (by omega), hh] at hlast
        have := hlong (b - 1) (b - 1) (n + 1) (by omega) (by omega) (by omega) (by omega) (by
          intro t ht
          cases t with
          | zero => have := hlast.2; rwa [show as + (b - as - 1) = b - 1 + 0 by omega] at this
          | succ t => have := h1.run t (by omega); rwa [show b - 1 + (t + 1) = b + t by omega])
        omega
    have hR : F.drop (b - as + n) = [] ∧ e = 0 ∨
        ∃ R', F.drop (b - as + n) = false :: R' ∧ (R'.takeWhile id).length = e ∧ e ≤ n := by
      by_cases hend : b + n = ae
      · refine .inl ⟨List.drop_eq_nil_of_le (by omega), ?_⟩
        apply Classical.byContradiction
        intro he
        have := hin (by omega)
        omega
      · have hn : ¬ Hit before after (b + n) (b + n) := by
          intro hx
          have := hlong b b (n + 1) (by omega) (by omega) (by omega) (by omega) (by
            intro t ht
            by_cases e : t = n
            · rw [e]; exact hx
            · exact h1.run t (by omega))
          omega
        have he : e ≤ n := by
          by_cases h0 : e = 0
          · omega
          · have := hin (by omega)
            exact hlong (b + n + 1) (b + n + 1) e (by omega) (by omega) (by omega) (by omega) h2.run
        refine .inr ⟨F.drop (b - as + n + 1), ?_, ?_, he⟩
        · have := hfalse (b - as + n) (by omega) (by rwa [show as + (b - as + n) = b + n by omega])
          rw [List.getElem?_eq_some_iff] at this
          obtain ⟨hlt, hx⟩ := this
          rw [List.drop_eq_getElem_cons hlt, hx]
        · apply lead_eq
          · intro t ht
            rw [List.getElem?_drop, hh]
            have := hin (by omega)
            refine ⟨by omega, ?_⟩
            have := h2.run t ht
            rwa [show b + n + 1 + t = as + (b - as + n + 1 + t) by omega] at this
          · rw [List.getElem?_drop, ne_eq, hh]
            rintro ⟨x1, x2⟩
            rw [show as + (b - as + n + 1 + e) = b + n + 1 + e by omega] at x2
            exact hstop (by omega) (by omega) x2
    have hle : b + (n + e) ≤ ae := by
      by_cases h0 : e = 0
      · omega
      · have := hin (by omega); omega
    have := taken_block n e _ _ hL hR
    clear hR
    rw [← hsplit] at this
    rw [this, covered_node]
    have lenL : (taken 0 false (F.take (b - as))).length = b - as := by
      rw [taken_length, List.length_take, Nat.min_eq_left (by omega)]
    have hl := ihl trivial trivial (F.take (b - as)) (by rw [List.length_take, Nat.min_eq_left (by omega)]) (by
      intro t
      rw [List.getElem?_take]
      split
      · rw [hh]; constructor <;> (rintro ⟨-, x⟩; exact ⟨by omega, x⟩)
      · exact ⟨fun x => by simp at x, fun x => by omega⟩)
    have hr := ihr trivial trivial ((F.drop (b - as + n)).drop e) (by simp only [List.length_drop]; omega) (by
      intro t
      rw [List.drop_drop, List.getElem?_drop, hh, show as + (b - as + n + e + t) = b + (n + e) + t by omega]
      constructor <;> (rintro ⟨x1, x⟩; exact ⟨by omega, x⟩))
    by_cases c1 : t < b - as
    · rw [List.getElem?_append_left (by omega), ← hl t]
      constructor
      · rintro (x | ⟨u, u1, u2, -⟩ | x)
        · exact x
        · simp only at u1 u2; omega
        · have := hdr.inside x; omega
      · exact .inl
    · rw [List.getElem?_append_right (by omega), lenL]
      by_cases c2 : t < b - as + (n + e)
      · rw [List.getElem?_append_left (by rw [List.length_replicate]; omega), List.getElem?_replicate, if_pos (by omega)]
        exact ⟨fun _ => rfl, fun _ => .inr (.inl ⟨as + t - b, by simp only; omega, by simp only; omega, by simp only; omega⟩)⟩
      · rw [List.getElem?_append_right (by rw [List.length_replicate]; omega), List.length_replicate]
        have := hr (t - (b - as) - (n + e))
        rw [show b + (n + e) + (t - (b - as) - (n + e)) = as + t by omega] at this
        rw [← this]
        constructor
        · rintro (x | ⟨u, u1, u2, -⟩ | x)
          · have := hdl.inside x; omega
          · simp only at u1 u2; omega
          · exact x
        · exact fun x => .inr (.inr x)

theorem Decomp.diagonal {T : Type} {before after : List T} (hd : ∀ j i, Hit before after j i → j = i) {bs be as ae : Nat}
    {d : List CommonSubsequence} (h : Decomp before after bs be as ae d) {j i : Nat} (hc : Covered d j i) : j = i := by
  induction h with
  | leaf h1 h2 h => obtain ⟨c, hc, -⟩ := hc; cases hc
  | @node bs be as ae c L R hb hl hr ihl ihr =>
    obtain ⟨n, e, h1, -⟩ := hb
    have := hd _ _ (h1.run 0 h1.pos)
    rcases covered_node.1 hc with hc | ⟨t, t1, t2, t3⟩ | hc
    · exact ihl hc
    · omega
    · exact ihr hc

section

variable {T : Type} [DecidableEq T] [Item T] [LawfulItem T]

/-- Which lines at the same place are equal. -/
def equalLines (before after : List T) : List Bool := List.zipWith (fun x y => decide (x = y)) before after

omit [Item T] [LawfulItem T] in
theorem equalLines_length {before after : List T} (hlen : before.length = after.length) :
    (equalLines before after).length = after.length := by
  simp [equalLines, hlen]

omit [Item T] [LawfulItem T] in
theorem equalLines_hit (before after : List T) (t : Nat) : (equalLines before after)[t]? = some true ↔ Hit before after t t := by
  unfold equalLines
  rw [List.getElem?_zipWith]
  constructor
  · intro h
    cases h1 : before[t]? with
    | none => rw [h1] at h; simp at h
    | some x =>
      cases h2 : after[t]? with
      | none => rw [h1, h2] at h; simp at h
      | some y =>
        rw [h1, h2] at h
        simp only [Option.some.injEq, decide_eq_true_eq] at h
        exact ⟨x, h1, by rw [h2, h]⟩
  · rintro ⟨x, h1, h2⟩
    rw [h1, h2]
    simp

/-- Lines are replaced in place, and no line of the new file is one of the old file at another place. Then a line is taken as unchanged
if and only if `taken` says so; all others are recorded as replaced. -/
theorem C135_changes (p : Profile) (before after : List T) (hlen : before.length = after.length)
    (hd : ∀ j i, Hit before after j i → j = i) :
    ∃ changes, changesOf p before after = .ok changes ∧
      ∀ j i, Kept changes j i ↔ j = i ∧ (taken 0 false (equalLines before after))[i]? = some true := by
  obtain ⟨changes, hc⟩ : ∃ changes, changesOf p before after = .ok changes := by
    exact C11_total p before after
  obtain ⟨-, -, -, d, hdc, hk⟩ := (C70_changes p before after changes).1 hc
  refine ⟨changes, hc, fun j i => ?_⟩
  have key := taken_decomp hd hdc rfl hlen.symm (equalLines before after) (by rw [equalLines_length hlen]; omega) (by
    intro t
    rw [equalLines_hit, Nat.zero_add]
    refine ⟨fun h => ⟨?_, h⟩, fun h => h.2⟩
    obtain ⟨x, h, -⟩ := h
    have := (List.getElem?_eq_some_iff.1 h).1
    omega)
  rw [hk]
  constructor
  · intro h
    obtain rfl := hdc.diagonal hd h
    refine ⟨rfl, (key j).1 (by rwa [Nat.zero_add])⟩
  · rintro ⟨rfl, h⟩
    have := (key j).2 h
    rwa [Nat.zero_add] at this

omit [Item T] [LawfulItem T] in
theorem inPlace_leftOut {before after : List T} {changes : List Change} (context : Nat) (hlen : before.length = after.length)
    (ht : Tiles 0 0 changes before.length after.length) (hp : ∀ c ∈ changes, c.Proper) (ha : Alternating changes)
    (hk : ∀ j i, Kept changes j i ↔ j = i ∧ (taken 0 false (equalLines before after))[i]? = some true) (j i : Nat) :
    LeftOut context changes j i ↔ j = i ∧ i < after.length ∧
      ∀ k, i ≤ k + context → k ≤ i + context → (taken 0 false (equalLines before after))[k]? ≠ some false := by
  have hl : (taken 0 false (equalLines before after)).length = after.length := by rw [taken_length, equalLines_length hlen]
  have hdiag : ∀ c, .noChange c ∈ changes → c.b = c.a := fun c hc =>
    ((hk c.b c.a).1 ⟨c, hc, 0, hp _ hc, by omega, by omega⟩).1
  have hin : ∀ c, .noChange c ∈ changes → ∀ k, c.a ≤ k → k < c.a + c.n →
      (taken 0 false (equalLines before after))[k]? = some true := fun c hc k h1 h2 => by
    have := hdiag c hc
    exact ((hk k k).1 ⟨c, hc, k - c.a, by omega, by omega, by omega⟩).2
  -- an item of a change is not taken
  have hout : ∀ c ∈ changes, c.isNoChange = false → ∀ k, k < after.length →
      ((c.old.start ≤ k ∧ k < c.old.fin) ∨ (c.new.start ≤ k ∧ k < c.new.fin)) →
      (taken 0 false (equalLines before after))[k]? = some false := by
    intro c hc hr k hlt h
    cases hx : (taken 0 false (equalLines before after))[k]? with
    | none => rw [List.getElem?_eq_none_iff] at hx; omega
    | some x =>
      cases x with
      | false => rfl
      | true =>
        obtain ⟨d, hd, t, t1, t2, t3⟩ := (hk k k).2 ⟨rfl, hx⟩
        obtain ⟨a, b, e⟩ := List.append_of_mem hc
        obtain ⟨a', b', e'⟩ := List.append_of_mem hd
        rw [e] at ht e'
        have := (ht.unique e' (by
          rcases h with h | h
          · exact .inr ⟨k, h.1, h.2, show d.b ≤ k by omega, show k < d.b + d.n by omega⟩
          · exact .inl ⟨k, h.1, h.2, show d.a ≤ k by omega, show k < d.a + d.n by omega⟩)).2.1
        rw [this] at hr
        cases hr
  constructor
  · rintro ⟨pre, c, post, t, e, t1, t2, t3, t4, t5⟩
    have hc : .noChange c ∈ changes := by rw [e]; simp
    have hdc := hdiag c hc
    have hat := (e ▸ ht : Tiles 0 0 (pre ++ .noChange c :: post) before.length after.length).at
    have hle := hat.2.2.2.le
    simp only [Change.old, Change.new] at hat hle
    refine ⟨by omega, by omega, fun k h1 h2 => ?_⟩
    by_cases k1 : k < c.a
    · by_cases hpre : pre = []
      · subst hpre
        have := hat.1
        simp only [Tiles] at this
        omega
      · have := t4 hpre
        omega
    · by_cases k2 : k < c.a + c.n
      · rw [hin c hc k (by omega) k2]; simp
      · by_cases hpost : post = []
        · subst hpost
          have := hat.2.2.2
          simp only [Tiles] at this
          rw [List.getElem?_eq_none (by omega)]
          simp
        · have := t5 hpost
          omega
  · rintro ⟨rfl, hi, h⟩
    have hj : (taken 0 false (equalLines before after))[j]? = some true := by
      have := h j (by omega) (by omega)
      rw [List.getElem?_eq_getElem (by omega)] at this ⊢
      simpa using this
    obtain ⟨c, hc, t, t1, t2, t3⟩ := (hk j j).2 ⟨rfl, hj⟩
    have hdc := hdiag c hc
    obtain ⟨pre, post, e⟩ := List.append_of_mem hc
    have hat := (e ▸ ht : Tiles 0 0 (pre ++ .noChange c :: post) before.length after.length).at
    have hle := hat.2.2.2.le
    simp only [Change.old, Change.new] at hat hle
    refine ⟨pre, c, post, t, e, t1, t2, t3, ?_, ?_⟩
    · intro hpre
      apply Classical.byContradiction
      intro hlt
      obtain ⟨init, d, rfl⟩ : ∃ init d, pre = init ++ [d] := ⟨pre.dropLast, pre.getLast hpre, (List.dropLast_concat_getLast hpre).symm⟩
      have hd : d ∈ changes := by rw [e]; simp
      have hr : d.isNoChange = false := by
        rw [e, List.append_assoc] at ha
        have := ha.neighbours
        cases hx : d.isNoChange with
        | false => rfl
        | true => rw [hx] at this; exact absurd rfl this
      have hfin := hat.1.snoc
      have hpos : d.old.start < d.old.fin ∨ d.new.start < d.new.fin := (hp d hd).nonempty
      have := hout d hd hr (c.a - 1) (by omega) (by omega)
      exact h (c.a - 1) (by omega) (by omega) this
    · intro hpost
      apply Classical.byContradiction
      intro hlt
      obtain ⟨d, rest, rfl⟩ : ∃ d rest, post = d :: rest := List.exists_cons_of_ne_nil hpost
      have hd : d ∈ changes := by rw [e]; simp
      have hr : d.isNoChange = false := by
        rw [e] at ha
        have := ha.neighbours
        cases hx : d.isNoChange with
        | false => rfl
        | true => rw [hx] at this; exact absurd rfl this
      obtain ⟨f1, f2, f3, f4, f5⟩ := hat.2.2.2
      have hpos : d.old.start < d.old.fin ∨ d.new.start < d.new.fin := (hp d hd).nonempty
      have := f5.le
      have := hout d hd hr (c.a + c.n) (by omega) (by omega)
      exact h (c.a + c.n) (by omega) (by omega) this

/-- What the patch makes of its own source: a line of the result is the line of the new file if a line is recorded as replaced that
is no more than `context` lines away; otherwise it is the line of the old file. -/
theorem C135_result (p q : Profile) (before after : List T) (context : Nat) (hctx : context ≤ 255) (hsz : after.length ≤ maxLines)
    (hlen : before.length = after.length) (hd : ∀ j i, Hit before after j i → j = i) (cs : List (DiffClump T))
    (h : diffClumps p before after context = .ok cs) :
    ∃ text, (applyInto q cs before false).run = (.ok { clean := cs.length }, bytesOf text) ∧ ∀ i : Nat,
      ((∃ k, i ≤ k + context ∧ k ≤ i + context ∧ (taken 0 false (equalLines before after))[k]? = some false) → text[i]? = after[i]?) ∧
      ((∀ k, i ≤ k + context → k ≤ i + context → (taken 0 false (equalLines before after))[k]? ≠ some false) →
        text[i]? = before[i]?) := by
  obtain ⟨changes, hc, hk⟩ := C135_changes p before after hlen hd
  obtain ⟨ht, hp, ha, -⟩ := (C70_changes p before after changes).1 hc
  obtain ⟨text, e, hl, hx⟩ := C97_partial p q before after context hctx (by omega) hsz changes cs hc h
  refine ⟨text, e, fun i => ⟨?_, ?_⟩⟩
  · rintro ⟨k, h1, h2, h3⟩
    exact (hx i).2 (fun j hj => ((inPlace_leftOut context hlen ht hp ha hk j i).1 hj).2.2 k h1 h2 h3)
  · intro hn
    by_cases hi : i < after.length
    · exact (hx i).1 i ((inPlace_leftOut context hlen ht hp ha hk i i).2 ⟨rfl, hi, hn⟩)
    · rw [List.getElem?_eq_none (by omega), List.getElem?_eq_none (by omega)]

end

/-- `m` replaced lines with `r` equal lines before, between and after them. -/
def spaced (r : Nat) : Nat → List Bool
  | 0 => List.replicate r true
  | m + 1 => List.replicate r true ++ false :: spaced r m

theorem spaced_lead (r m : Nat) : ((spaced r m).takeWhile id).length = r := by
  apply lead_eq
  · intro t ht
    cases m <;> simp only [spaced]
    · rw [List.getElem?_replicate, if_pos ht]
    · rw [List.getElem?_append_left (by simpa using ht), List.getElem?_replicate, if_pos ht]
  · cases m <;> simp [spaced]

theorem spaced_two (r m : Nat) (hr : 2 ≤ r) : taken 0 false (spaced r (m + 2)) =
    List.replicate r true ++ true :: (List.replicate r true ++ false :: taken 0 false (spaced r m)) := by
  show taken 0 false (List.replicate r true ++ false :: spaced r (m + 1)) = _
  rw [taken_run]
  congr 1
  simp only [taken]
  rw [spaced_lead, if_pos (by omega)]
  congr 1
  show taken 1 true (List.replicate r true ++ false :: spaced r m) = _
  rw [taken_joined]
  congr 1
  simp only [taken]
  rw [spaced_lead, if_neg (by omega)]

theorem spaced_taken (r : Nat) (hr : 2 ≤ r) (m k : Nat) (hk : k < m) :
    (taken 0 false (spaced r m))[k * (r + 1) + r]? = some (decide (k % 2 = 0)) := by
  induction m using Nat.strongRecOn generalizing k with
  | ind m ih =>
    match m, hk with
    | 1, hk =>
      obtain rfl : k = 0 := by omega
      show (taken 0 false (List.replicate r true ++ false :: spaced r 0))[_]? = _
      rw [taken_run, List.getElem?_append_right (by simp)]
      simp only [taken]
      rw [spaced_lead, if_pos (by omega)]
      simp
    | m + 2, hk =>
      rw [spaced_two r m hr]
      match k with
      | 0 => simp
      | 1 =>
        rw [List.getElem?_append_right (by rw [List.length_replicate]; omega), List.length_replicate, show 1 * (r + 1) + r - r = r + 1 by omega,
          List.getElem?_cons_succ]
        simp
      | k + 2 =>
        have e : (k + 2) * (r + 1) + r = k * (r + 1) + r + (r + 1) + (r + 1) := by rw [Nat.add_mul]; omega
        rw [e, List.getElem?_append_right (by rw [List.length_replicate]; omega), List.length_replicate,
          show k * (r + 1) + r + (r + 1) + (r + 1) - r = k * (r + 1) + r + (r + 1) + 1 by omega, List.getElem?_cons_succ,
          List.getElem?_append_right (by rw [List.length_replicate]; omega), List.length_replicate,
          show k * (r + 1) + r + (r + 1) - r = k * (r + 1) + r + 1 by omega, List.getElem?_cons_succ, ih m (by omega) k (by omega),
          show (k + 2) % 2 = k % 2 by omega]

section

variable {T : Type} [DecidableEq T] [Item T] [LawfulItem T]

/-- When single lines are replaced at equal distances, with `r ≥ 2` equal lines before, between and after them, every second one is not
found: the first, the third, and so on. -/
theorem C135_spaced (p : Profile) (before after : List T) (r m : Nat) (hr : 2 ≤ r) (hlen : before.length = after.length)
    (hd : ∀ j i, Hit before after j i → j = i) (hs : equalLines before after = spaced r m) :
    ∃ changes, changesOf p before after = .ok changes ∧
      ∀ k < m, Kept changes (k * (r + 1) + r) (k * (r + 1) + r) ↔ k % 2 = 0 := by
  obtain ⟨changes, hc, hk⟩ := C135_changes p before after hlen hd
  refine ⟨changes, hc, fun k hkm => ?_⟩
  rw [hk, hs, spaced_taken r hr m k hkm]
  simp

/-- Replaced lines with so many equal lines before the first, between them and after the last. -/
def ofRuns : Nat → List Nat → List Bool
  | r, [] => List.replicate r true
  | r, r' :: rs => List.replicate r true ++ false :: ofRuns r' rs

theorem ofRuns_lead (r : Nat) (rs : List Nat) : ((ofRuns r rs).takeWhile id).length = r := by
  apply lead_eq
  · intro t ht
    cases rs <;> simp only [ofRuns]
    · rw [List.getElem?_replicate, if_pos ht]
    · rw [List.getElem?_append_left (by simpa using ht), List.getElem?_replicate, if_pos ht]
  · cases rs <;> simp [ofRuns]

theorem ofRuns_taken (r : Nat) (rs : List Nat) (h : (r :: rs).Pairwise (· < ·)) : taken 0 false (ofRuns r rs) = ofRuns r rs := by
  induction rs generalizing r with
  | nil =>
    have := taken_run r 0 []
    rwa [List.append_nil, show taken (0 + r) false [] = [] from rfl, List.append_nil] at this
  | cons r' rs ih =>
    simp only [ofRuns]
    rw [taken_run]
    simp only [taken]
    rw [ofRuns_lead, if_neg (by have := List.rel_of_pairwise_cons h (List.mem_cons_self); omega), ih r' h.of_cons]

/-- When single lines are replaced, and each time there are more equal lines after a replaced line than before it, all of them are
found. -/
theorem C135_growing (p : Profile) (before after : List T) (r : Nat) (rs : List Nat) (h : (r :: rs).Pairwise (· < ·))
    (hlen : before.length = after.length) (hd : ∀ j i, Hit before after j i → j = i) (hs : equalLines before after = ofRuns r rs) :
    ∃ changes, changesOf p before after = .ok changes ∧ ∀ j i, Kept changes j i ↔ Hit before after j i := by
  obtain ⟨changes, hc, hk⟩ := C135_changes p before after hlen hd
  refine ⟨changes, hc, fun j i => ?_⟩
  rw [hk, hs, ofRuns_taken r rs h, ← hs, equalLines_hit]
  constructor
  · rintro ⟨rfl, h⟩; exact h
  · intro h; obtain rfl := hd _ _ h; exact ⟨rfl, h⟩

/-- What one may expect: lines replaced in place are carried over by a patch. -/
def C135_statement : Prop :=
  ∀ (p q : Profile) (s t : Str) (context : Nat) (cs : List (DiffClump Str)), context ≤ 255 →
    (splitInclusive s).length = (splitInclusive t).length → (splitInclusive s).Nodup → (splitInclusive t).Nodup →
    diffClumps p (splitInclusive s) (splitInclusive t) context = .ok cs →
    (applyInto q cs (splitInclusive s) false).run.2 = t.bytes

/-- Two lines of eight are replaced; the first is not found. -/
theorem C135_refuted : ¬ C135_statement := by
  intro h
  have := h .debug .debug ['a', '\n', 'b', '\n', 'c', '\n', 'd', '\n', 'e', '\n', 'f', '\n', 'g', '\n', 'h', '\n']
    ['a', '\n', 'b', '\n', 'X', '\n', 'd', '\n', 'e', '\n', 'Y', '\n', 'g', '\n', 'h', '\n'] 2
    [⟨(2, 2), ⟨3, [['d', '\n'], ['e', '\n'], ['f', '\n'], ['g', '\n'], ['h', '\n']]⟩,
      ⟨3, [['d', '\n'], ['e', '\n'], ['Y', '\n'], ['g', '\n'], ['h', '\n']]⟩⟩] (by decide) (by decide +kernel) (by decide +kernel)
    (by decide +kernel) (by decide +kernel)
  revert this
  decide +kernel

omit [Item T] [LawfulItem T] in
theorem diagonal_of_check {before after : List T} (h : ∀ j < before.length, ∀ i < after.length, hitB before after j i = true → j = i) :
    ∀ j i, Hit before after j i → j = i := by
  intro j i hh
  obtain ⟨x, h1, h2⟩ := hh
  exact h j (List.getElem?_eq_some_iff.1 h1).1 i (List.getElem?_eq_some_iff.1 h2).1 ((hitB_iff _ _ _ _).2 ⟨x, h1, h2⟩)

example := C135_changes .debug ([1, 2, 3, 4, 5, 6, 7, 8] : List UInt8) [1, 2, 33, 4, 5, 66, 7, 8] rfl (diagonal_of_check (by decide +kernel))
example := C135_result .debug .release ([1, 2, 3, 4, 5, 6, 7, 8] : List UInt8) [1, 2, 33, 4, 5, 66, 7, 8] 1 (by decide) (by decide) rfl
  (diagonal_of_check (by decide +kernel)) _
  (by decide +kernel : diffClumps .debug ([1, 2, 3, 4, 5, 6, 7, 8] : List UInt8) [1, 2, 33, 4, 5, 66, 7, 8] 1 =
    .ok [⟨(1, 1), ⟨4, [5, 6, 7]⟩, ⟨4, [5, 66, 7]⟩⟩])
example := C135_spaced .debug ([1, 2, 3, 4, 5, 6, 7, 8] : List UInt8) [1, 2, 33, 4, 5, 66, 7, 8] 2 2 (by decide) rfl
  (diagonal_of_check (by decide +kernel)) (by decide +kernel)
example := C135_growing .debug ([1, 2, 3, 4, 5, 6, 7, 8] : List UInt8) [1, 22, 3, 4, 55, 6, 7, 8] 1 [2, 3] (by decide) rfl
  (diagonal_of_check (by decide +kernel)) (by decide +kernel)

end

/-- A session with any two text files, in terms of the clumps. -/
theorem session_result (p q : Profile) (temp patch before after : Path) (context : Nat) (w : World) (s t : Str)
    (hw : Fresh w patch temp) (hctx : context ≤ 255) (hub : IsUtf8 before) (hua : IsUtf8 after)
    (hb : w.fs.contentAt before = some ⟨s.bytes, false⟩) (ha : w.fs.contentAt after = some ⟨t.bytes, false⟩)
    (hsb : (splitInclusive s).length ≤ maxLines) (hst : (splitInclusive t).length ≤ maxLines) :
    ∃ (patchContent : List UInt8) (cs : List (DiffClump Str)) (out : List UInt8),
      diffClumps p (splitInclusive s) (splitInclusive t) context = .ok cs ∧
      (applyInto q cs (splitInclusive s) false).run = (.ok { clean := cs.length }, out) ∧
      session p q temp patch before after context w =
      ((.exited 0, { w with stdout := patchContent }),
       (.exited 0, { w with fs := (w.fs.set (w.fs.entry patch) (some (.file patchContent))).set (w.fs.entry before) (some (.file out)) }),
       (.exited 0, { w with fs := (w.fs.set (w.fs.entry patch) (some (.file patchContent))).set (w.fs.entry before) (some (.file s.bytes)) })) := by
  obtain ⟨cs, hcs⟩ := diffClumps_total p (splitInclusive s) (splitInclusive t) context
  have hd := diffNew_text hw.faults p context hb ha hcs
  have hsz : ∀ n, n ≤ maxLines → n < wordSize := by
    intro n h
    simp only [maxLines, wordSize] at *
    omega
  obtain ⟨hdiff, changes, hch, hd2⟩ := diffClumps_full hctx hcs
  obtain ⟨hr, hl, hback⟩ := hdiff.retarget
  have hlines := isLines_unique (isLines_patched hch hd2) (isLines_splitInclusive _)
  generalize hu : (patchedFrom (splitInclusive s) 0 0 cs).flatten = u at hlines
  change Str at u
  have hbytes : ∀ u : Str, bytesOf (splitInclusive u) = u.bytes := by
    intro u
    show (splitInclusive u).flatMap Str.bytes = _
    rw [flatMap_bytes, flatten_splitInclusive]
  have e1 : (applyInto q cs (splitInclusive s) false).run = (.ok { clean := cs.length }, u.bytes) := by
    rw [apply_to_source q hdiff hsb hst, WM.run_emit, hlines, hbytes]
  have e2 : (applyInto q cs (splitInclusive u) true).run = (.ok { clean := cs.length }, s.bytes) := by
    have := apply_to_source q hr.swap (by omega) hsb
    rw [Swap.applyAll, hback, List.length_map, hlines, hbytes] at this
    rw [show (true : Bool) = !false from rfl, this, WM.run_emit]
  exact ⟨_, cs, u.bytes, hcs, e1, session_change p q hw hd (clumps_inRange hctx hcs (hsz _ hsb) (hsz _ hst))
    (by intro path h; simp only [Diff.paths, List.mem_cons, List.not_mem_nil, or_false] at h; rcases h with rfl | rfl <;> assumption)
    rfl hb ⟨s, _, rfl, e1⟩ ⟨u, _, rfl, e2⟩⟩

/-- In the programs: the lines of the patched file, when lines were replaced in place. -/
theorem C135_session (p q : Profile) (temp patch before after : Path) (context : Nat) (w : World) (s t : Str)
    (hw : Fresh w patch temp) (hctx : context ≤ 255) (hub : IsUtf8 before) (hua : IsUtf8 after)
    (hb : w.fs.contentAt before = some ⟨s.bytes, false⟩) (ha : w.fs.contentAt after = some ⟨t.bytes, false⟩)
    (hst : (splitInclusive t).length ≤ maxLines) (hlen : (splitInclusive s).length = (splitInclusive t).length)
    (hd : ∀ j i, Hit (splitInclusive s) (splitInclusive t) j i → j = i) :
    ∃ (patchContent : List UInt8) (text : List Str), session p q temp patch before after context w =
      ((.exited 0, { w with stdout := patchContent }),
       (.exited 0, { w with fs := (w.fs.set (w.fs.entry patch) (some (.file patchContent))).set (w.fs.entry before) (some (.file (bytesOf text))) }),
       (.exited 0, { w with fs := (w.fs.set (w.fs.entry patch) (some (.file patchContent))).set (w.fs.entry before) (some (.file s.bytes)) })) ∧
      ∀ i : Nat,
      ((∃ k, i ≤ k + context ∧ k ≤ i + context ∧ (taken 0 false (equalLines (splitInclusive s) (splitInclusive t)))[k]? = some false) →
        text[i]? = (splitInclusive t)[i]?) ∧
      ((∀ k, i ≤ k + context → k ≤ i + context →
        (taken 0 false (equalLines (splitInclusive s) (splitInclusive t)))[k]? ≠ some false) → text[i]? = (splitInclusive s)[i]?) := by
  obtain ⟨c, cs, out, h1, h2, h3⟩ := session_result p q temp patch before after context w s t hw hctx hub hua hb ha (by omega) hst
  obtain ⟨text, h4, h5⟩ := C135_result p q _ _ context hctx hst hlen hd cs h1
  rw [h2] at h4
  cases h4
  exact ⟨c, text, h3, h5⟩

/-- A file in which every second one of equally spaced lines is found. -/
example (p q : Profile) : ∃ r,
    (session p q [84] [80] [65] [67] 0 ⟨FS.ofFiles [([65], Str.bytes (['a', '\n', 'b', '\n', 'c', '\n', 'd', '\n', 'e', '\n', 'f', '\n', 'g', '\n', 'h', '\n'])),
      ([67], Str.bytes (['a', '\n', 'b', '\n', 'X', '\n', 'd', '\n', 'e', '\n', 'Y', '\n', 'g', '\n', 'h', '\n']))], [], []⟩).2.1 = (.exited 0, r) ∧
      ∃ text : List Str, r.fs.contentAt [65] = some ⟨bytesOf text, false⟩ ∧ text[2]? = some ['c', '\n'] ∧ text[5]? = some ['Y', '\n'] := by
  obtain ⟨e1, e2, e3, e3', e4, e5, e6, e6', e7, e8⟩ := FS.ofFiles_two
    (Str.bytes (['a', '\n', 'b', '\n', 'c', '\n', 'd', '\n', 'e', '\n', 'f', '\n', 'g', '\n', 'h', '\n']))
    (Str.bytes (['a', '\n', 'b', '\n', 'X', '\n', 'd', '\n', 'e', '\n', 'Y', '\n', 'g', '\n', 'h', '\n']))
  generalize FS.ofFiles [([65], Str.bytes (['a', '\n', 'b', '\n', 'c', '\n', 'd', '\n', 'e', '\n', 'f', '\n', 'g', '\n', 'h', '\n'])),
    ([67], Str.bytes (['a', '\n', 'b', '\n', 'X', '\n', 'd', '\n', 'e', '\n', 'Y', '\n', 'g', '\n', 'h', '\n']))] = fs at *
  obtain ⟨_, text, e, h⟩ := C135_session p q [84] [80] [65] [67] 0 ⟨fs, [], []⟩
    ['a', '\n', 'b', '\n', 'c', '\n', 'd', '\n', 'e', '\n', 'f', '\n', 'g', '\n', 'h', '\n']
    ['a', '\n', 'b', '\n', 'X', '\n', 'd', '\n', 'e', '\n', 'Y', '\n', 'g', '\n', 'h', '\n']
    ⟨rfl, rfl, by simp [e3', e6], by simp [e3, e6'], by simp [e3, e3']⟩ (by decide) ⟨['A'], by decide⟩ ⟨['C'], by decide⟩ e7 e8
    (by decide +kernel) (by decide +kernel) (diagonal_of_check (by decide +kernel))
  rw [e]
  refine ⟨_, rfl, text, FS.contentAt_of_file (by simp), ?_, ?_⟩
  · refine ((h 2).2 fun k h1 h2 => ?_).trans (by decide +kernel)
    obtain rfl : k = 2 := by omega
    decide +kernel
  · exact ((h 5).1 ⟨5, by omega, by omega, by decide +kernel⟩).trans (by decide +kernel)

end PwDiff
