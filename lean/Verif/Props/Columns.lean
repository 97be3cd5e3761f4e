import Verif.Props.InPlace

/-! # C136: common lines that are unique and in order -/

namespace PwDiff

/-- A file and another one side by side: lines that are the same, and lines that were edited. -/
inductive Column (T : Type) where
  | same (x : T)
  | edit (X Y : List T)

section

variable {T : Type}

def Column.old : Column T → List T
  | .same x => [x]
  | .edit X _ => X

def Column.new : Column T → List T
  | .same x => [x]
  | .edit _ Y => Y

def Column.isSame : Column T → Bool
  | .same _ => true
  | .edit _ _ => false

/-- The first file. -/
def olds (C : List (Column T)) : List T := C.flatMap Column.old

/-- The second file. -/
def news (C : List (Column T)) : List T := C.flatMap Column.new

/-- Edits are not empty, and what was edited together is one edit. -/
def Tidy : List (Column T) → Prop
  | [] => True
  | .same _ :: rest => Tidy rest
  | .edit X Y :: rest => (X ≠ [] ∨ Y ≠ []) ∧ (∀ X' Y' rest', rest ≠ .edit X' Y' :: rest') ∧ Tidy rest

/-- The number of lines up to the next edit. -/
def leadOf (C : List (Column T)) : Nat := (C.takeWhile Column.isSame).length

/-- Which columns are taken as unchanged. `run` is the number of equal lines that stand just before; they count as one if the edit
before them was taken as unchanged (`joined`). An edit is taken as unchanged if it replaces one line by one line, and the lines that
follow it up to the next edit are some, but no more than `run`. -/
def takenOf : Nat → Bool → List (Column T) → List Bool
  | _, _, [] => []
  | run, joined, .same _ :: rest => true :: takenOf (if joined then 1 else run + 1) joined rest
  | run, _, .edit X Y :: rest =>
    if (X.length = 1 ∧ Y.length = 1) ∧ 0 < leadOf rest ∧ leadOf rest ≤ run then true :: takenOf 1 true rest
    else false :: takenOf 0 false rest

/-- All runs of equal lines are shorter than `n`, the first of them when it has `k` lines more, and the last column is an edit. -/
def SameRunsBelow (n : Nat) : Nat → List (Column T) → Prop
  | k, [] => k = 0
  | k, .same _ :: rest => SameRunsBelow n (k + 1) rest
  | k, .edit _ _ :: rest => k < n ∧ SameRunsBelow n 0 rest

def AllSame (S : List (Column T)) : Prop := ∀ c ∈ S, c.isSame = true

theorem takenOf_length (run : Nat) (joined : Bool) (C : List (Column T)) : (takenOf run joined C).length = C.length := by
  induction C generalizing run joined with
  | nil => rfl
  | cons x l ih =>
    cases x with
    | same x => simp only [takenOf, List.length_cons, ih]
    | edit X Y => simp only [takenOf]; split <;> simp only [List.length_cons, ih]

theorem takenOf_run (S : List (Column T)) (hS : AllSame S) (run : Nat) (l : List (Column T)) : takenOf run false (S ++ l) =
    List.replicate S.length true ++ takenOf (run + S.length) false l := by
  induction S generalizing run with
  | nil => rfl
  | cons c S ih =>
    cases c with
    | same x =>
      simp only [List.cons_append, takenOf, Bool.false_eq_true, if_false, List.length_cons, List.replicate_succ]
      rw [ih (fun c hc => hS c (List.mem_cons_of_mem _ hc)), show run + 1 + S.length = run + (S.length + 1) by omega]
    | edit X Y => have := hS _ (List.mem_cons_self); cases this

theorem takenOf_joined (S : List (Column T)) (hS : AllSame S) (l : List (Column T)) : takenOf 1 true (S ++ l) =
    List.replicate S.length true ++ takenOf 1 true l := by
  induction S with
  | nil => rfl
  | cons c S ih =>
    cases c with
    | same x =>
      simp only [List.cons_append, takenOf, if_true, List.length_cons, List.replicate_succ]
      rw [ih (fun c hc => hS c (List.mem_cons_of_mem _ hc))]
    | edit X Y => have := hS _ (List.mem_cons_self); cases this

theorem leadOf_append (S : List (Column T)) (hS : AllSame S) (l : List (Column T)) : leadOf (S ++ l) = S.length + leadOf l := by
  unfold leadOf
  rw [List.takeWhile_append_of_pos hS, List.length_append]

theorem leadOf_short (n k : Nat) (L l : List (Column T)) (h : SameRunsBelow n k L) (hne : k ≠ 0 ∨ L ≠ []) :
    leadOf (L ++ l) = leadOf L := by
  unfold leadOf
  induction L generalizing k with
  | nil => exact absurd h (by rcases hne with h | h; exact h; exact absurd rfl h)
  | cons x L ih =>
    cases x with
    | same x =>
      simp only [List.cons_append, List.takeWhile_cons, Column.isSame, if_true, List.length_cons, ih (k + 1) h (.inl (by omega))]
    | edit X Y => simp [Column.isSame]

theorem takenOf_append (L : List (Column T)) (S R : List (Column T)) (hS : AllSame S) (run k : Nat) (joined : Bool)
    (h : SameRunsBelow S.length k L)
    (hi : (run ≤ k ∧ (k = 0 → joined = false)) ∨ (run = 1 ∧ k = 0 ∧ joined = true ∧ L ≠ [] ∧ leadOf L ≠ 0)) :
    takenOf run joined (L ++ (S ++ R)) = takenOf run joined L ++ takenOf 0 false (S ++ R) := by
  induction L generalizing run k joined with
  | nil =>
    obtain rfl : k = 0 := h
    rcases hi with ⟨h1, h2⟩ | ⟨-, -, -, h, -⟩
    · rw [h2 rfl, show run = 0 by omega]; rfl
    · exact absurd rfl h
  | cons x L ih =>
    cases x with
    | same x =>
      simp only [List.cons_append, takenOf]
      have : (if joined = true then 1 else run + 1) ≤ k + 1 := by
        rcases hi with ⟨hi, -⟩ | ⟨-, -, hi, -⟩
        · split <;> omega
        · rw [if_pos hi]; omega
      rw [ih _ (k + 1) _ h (.inl ⟨this, by omega⟩)]
    | edit X Y =>
      obtain ⟨h1, h2⟩ := h
      have hrun : run < S.length := by
        rcases hi with ⟨h, -⟩ | ⟨-, -, -, -, h⟩
        · omega
        · simp [leadOf, Column.isSame] at h
      simp only [List.cons_append, takenOf]
      by_cases hL : L = []
      · subst hL
        have := leadOf_append S hS R
        rw [List.nil_append, if_neg (by omega), if_neg (by simp [leadOf])]
        rfl
      · rw [leadOf_short S.length 0 L _ h2 (.inr hL)]
        split
        · next hc => rw [ih 1 0 true h2 (.inr ⟨rfl, rfl, rfl, hL, by omega⟩)]; rfl
        · rw [ih 0 0 false h2 (.inl ⟨by omega, fun _ => rfl⟩)]; rfl

/-- What the search takes as one block, and what is left on both sides. -/
theorem takenOf_block (e : Nat) (L S R : List (Column T)) (hS : AllSame S) (hL : SameRunsBelow S.length 0 L) (hR : R = [] ∧ e = 0 ∨
    ∃ X Y R', R = .edit X Y :: R' ∧ ((X.length = 1 ∧ Y.length = 1) ∧ leadOf R' = e ∧ e ≤ S.length ∨
      ¬ (X.length = 1 ∧ Y.length = 1) ∧ e = 0)) :
    takenOf 0 false (L ++ (S ++ R)) =
      takenOf 0 false L ++ (List.replicate (S.length + e) true ++ takenOf 0 false (R.drop e)) := by
  rw [takenOf_append L S R hS 0 0 false hL (.inl ⟨by omega, fun _ => rfl⟩), takenOf_run S hS]
  congr 1
  rw [← List.replicate_append_replicate, List.append_assoc]
  congr 1
  rcases hR with ⟨rfl, rfl⟩ | ⟨X, Y, R', rfl, ⟨hX, rfl, he⟩ | ⟨hX, rfl⟩⟩
  · rfl
  · obtain ⟨A, S', hR', hA, hl, hh⟩ : ∃ A S', R' = A ++ S' ∧ AllSame A ∧ A.length = leadOf R' ∧ ∀ x S'', S' ≠ .same x :: S'' := by
      refine ⟨R'.takeWhile Column.isSame, R'.dropWhile Column.isSame, List.takeWhile_append_dropWhile.symm, ?_, rfl, ?_⟩
      · exact List.all_eq_true.1 (List.all_takeWhile (p := Column.isSame) (l := R'))
      · intro x S'' h
        have := List.head?_dropWhile_not Column.isSame R'
        rw [h] at this
        simp [Column.isSame] at this
    rw [← hl] at he ⊢
    simp only [takenOf]
    rw [← hl]
    clear hl
    subst hR'
    by_cases hm : A.length = 0
    · rw [if_neg (by omega), hm, List.drop_zero]
      simp only [takenOf]
      rw [if_neg (by omega)]
      rfl
    · rw [if_pos ⟨hX, by omega, by omega⟩, takenOf_joined A hA]
      obtain ⟨A', z, rfl⟩ : ∃ A' z, A = A' ++ [z] := ⟨A.dropLast, A.getLast (by intro h; rw [h] at hm; exact hm rfl), (List.dropLast_concat_getLast _).symm⟩
      obtain ⟨x, rfl⟩ : ∃ x, z = .same x := by
        have := hA z (by simp)
        cases z with
        | same x => exact ⟨x, rfl⟩
        | edit _ _ => cases this
      have hd : (Column.edit X Y :: (A' ++ [.same x] ++ S')).drop (A' ++ [Column.same x]).length = .same x :: S' := by
        rw [List.length_append, List.length_singleton, List.drop_succ_cons, List.append_assoc, List.drop_left]
        rfl
      rw [hd]
      have : takenOf 1 true S' = takenOf 1 false S' := by
        cases S' with
        | nil => rfl
        | cons c S' => cases c with
          | same x => exact absurd rfl (hh x S')
          | edit X Y => rfl
      rw [this]
      show true :: (List.replicate (A' ++ [Column.same x]).length true ++ takenOf 1 false S') =
        List.replicate (A' ++ [Column.same x]).length true ++ ([true] ++ takenOf 1 false S')
      rw [← List.append_assoc, ← List.replicate_succ', List.replicate_succ]
      rfl
  · simp only [takenOf, List.drop_zero]
    rw [if_neg (by omega), if_neg (by omega)]
    rfl

theorem sameRunsBelow_of (n : Nat) (P L : List (Column T)) (hP : AllSame P)
    (h : ∀ A S B, P ++ L = A ++ (S ++ B) → AllSame S → S.length ≠ n) (hl : ∀ A x, P ++ L ≠ A ++ [.same x]) :
    SameRunsBelow n P.length L := by
  induction L generalizing P with
  | nil =>
    by_cases hne : P = []
    · rw [hne]; rfl
    · have := hP (P.getLast hne) (List.getLast_mem hne)
      have e := List.dropLast_concat_getLast hne
      cases hz : P.getLast hne with
      | same x =>
        rw [hz] at e
        exact absurd (by rw [List.append_nil, e]) (hl P.dropLast x)
      | edit _ _ => rw [hz] at this; cases this
  | cons c L ih =>
    cases c with
    | same x =>
      have e : P ++ .same x :: L = P ++ [.same x] ++ L := by simp
      rw [e] at h hl
      have := ih (P ++ [.same x]) (by
        intro c hc
        rcases List.mem_append.1 hc with hc | hc
        · exact hP c hc
        · rw [List.mem_singleton.1 hc]; rfl) h hl
      rwa [List.length_append] at this
    | edit X Y =>
      refine ⟨?_, ih [] (by intro c hc; cases hc) ?_ ?_⟩
      · apply Classical.byContradiction
        intro hk
        refine h [] (P.take n) (P.drop n ++ .edit X Y :: L) ?_ (fun c hc => hP c (List.mem_of_mem_take hc)) ?_
        · rw [List.nil_append, ← List.append_assoc, List.take_append_drop]
        · rw [List.length_take]; omega
      · intro A S B e hS
        refine h (P ++ .edit X Y :: A) S B ?_ hS
        rw [List.nil_append] at e
        rw [e]
        simp
      · intro A x e
        rw [List.nil_append] at e
        exact hl (P ++ .edit X Y :: A) x (by rw [e]; simp)

/-! ## Positions -/

/-- Where column `t` begins in the first file. -/
def oldAt (C : List (Column T)) (t : Nat) : Nat := (olds (C.take t)).length

/-- Where column `t` begins in the second file. -/
def newAt (C : List (Column T)) (t : Nat) : Nat := (news (C.take t)).length

theorem at_succ {C : List (Column T)} {t : Nat} {c : Column T} (h : C[t]? = some c) :
    oldAt C (t + 1) = oldAt C t + c.old.length ∧ newAt C (t + 1) = newAt C t + c.new.length := by
  obtain ⟨hlt, rfl⟩ := List.getElem?_eq_some_iff.1 h
  simp only [oldAt, newAt, olds, news, List.take_succ_eq_append_getElem hlt, List.flatMap_append, List.length_append,
    List.flatMap_cons, List.flatMap_nil, List.append_nil, true_and]

theorem at_mono (C : List (Column T)) {t u : Nat} (h : t ≤ u) : oldAt C t ≤ oldAt C u ∧ newAt C t ≤ newAt C u := by
  obtain ⟨m, rfl⟩ := Nat.exists_eq_add_of_le h
  simp only [oldAt, newAt, olds, news, List.take_add, List.flatMap_append, List.length_append]
  omega

theorem Tidy.drop {C : List (Column T)} (h : Tidy C) (t : Nat) : Tidy (C.drop t) := by
  induction C generalizing t with
  | nil => simpa using h
  | cons c C ih =>
    cases t with
    | zero => exact h
    | succ t =>
      rw [List.drop_succ_cons]
      cases c with
      | same x => exact ih h t
      | edit X Y => exact ih h.2.2 t

theorem Tidy.take {C : List (Column T)} (h : Tidy C) (t : Nat) : Tidy (C.take t) := by
  induction C generalizing t with
  | nil => simpa using h
  | cons c C ih =>
    cases t with
    | zero => trivial
    | succ t =>
      rw [List.take_succ_cons]
      cases c with
      | same x => exact ih h t
      | edit X Y =>
        refine ⟨h.1, ?_, ih h.2.2 t⟩
        intro X' Y' rest e
        cases C with
        | nil => simp at e
        | cons d C =>
          cases t with
          | zero => simp at e
          | succ t =>
            rw [List.take_succ_cons] at e
            injection e with e1 e2
            exact h.2.1 X' Y' C (by rw [e1])

theorem Tidy.edit {C : List (Column T)} (h : Tidy C) {t : Nat} {X Y : List T} (he : C[t]? = some (.edit X Y)) :
    (X ≠ [] ∨ Y ≠ []) ∧ ∀ X' Y', C[t + 1]? ≠ some (.edit X' Y') := by
  obtain ⟨hlt, hx⟩ := List.getElem?_eq_some_iff.1 he
  have := h.drop t
  rw [List.drop_eq_getElem_cons hlt, hx] at this
  refine ⟨this.1, fun X' Y' e => ?_⟩
  obtain ⟨hlt', hx'⟩ := List.getElem?_eq_some_iff.1 e
  exact this.2.1 X' Y' (C.drop (t + 2)) (by rw [List.drop_eq_getElem_cons hlt', hx'])

theorem at_strict {C : List (Column T)} (h : Tidy C) {t u : Nat} (htu : t < u) (hu : u ≤ C.length) :
    oldAt C t + newAt C t < oldAt C u + newAt C u := by
  have hm := at_mono C (show t + 1 ≤ u from htu)
  have e : C[t]? = some C[t] := List.getElem?_eq_getElem (by omega)
  have hs := at_succ e
  cases hc : C[t] with
  | same x =>
    rw [hc] at hs
    simp only [Column.old, Column.new, List.length_singleton] at hs
    omega
  | edit X Y =>
    rw [hc] at e hs
    have : 0 < X.length ∨ 0 < Y.length := by
      rcases (h.edit e).1 with h | h
      · exact .inl (List.length_pos_iff.2 h)
      · exact .inr (List.length_pos_iff.2 h)
    simp only [Column.old, Column.new] at hs
    omega

theorem at_unique {C : List (Column T)} (h : Tidy C) {t u : Nat} (ht : t ≤ C.length) (hu : u ≤ C.length)
    (e1 : oldAt C t = oldAt C u) (e2 : newAt C t = newAt C u) : t = u := by
  rcases Nat.lt_trichotomy t u with hlt | he | hlt
  · have := at_strict h hlt hu; omega
  · exact he
  · have := at_strict h hlt ht; omega

/-- `t` is a column of equal lines. -/
def SameAt (C : List (Column T)) (t : Nat) : Prop := ∃ x, C[t]? = some (.same x)

theorem SameAt.succ {C : List (Column T)} {t : Nat} (h : SameAt C t) :
    t < C.length ∧ oldAt C (t + 1) = oldAt C t + 1 ∧ newAt C (t + 1) = newAt C t + 1 := by
  obtain ⟨x, h⟩ := h
  exact ⟨(List.getElem?_eq_some_iff.1 h).1, at_succ h⟩

theorem sameAt_run {C : List (Column T)} {t n : Nat} (h : ∀ k < n, SameAt C (t + k)) :
    ∀ k ≤ n, oldAt C (t + k) = oldAt C t + k ∧ newAt C (t + k) = newAt C t + k := by
  intro k hk
  induction k with
  | zero => simp
  | succ k ih =>
    have := ih (by omega)
    have := (h k (by omega)).succ
    rw [← Nat.add_assoc]
    omega

/-- In a region the equal pairs are those of the columns. -/
def SideBySide (before after : List T) (bs as : Nat) (C : List (Column T)) : Prop :=
  ∀ j i, bs ≤ j → j < bs + (olds C).length → as ≤ i → i < as + (news C).length →
    (Hit before after j i ↔ ∃ t, SameAt C t ∧ j = bs + oldAt C t ∧ i = as + newAt C t)

theorem at_full (C : List (Column T)) : oldAt C C.length = (olds C).length ∧ newAt C C.length = (news C).length := by
  simp [oldAt, newAt]

theorem at_length (C : List (Column T)) {t : Nat} (h : t ≤ C.length) : oldAt C t ≤ (olds C).length ∧ newAt C t ≤ (news C).length := by
  have := at_mono C h
  have := at_full C
  omega

theorem SideBySide.hit {before after : List T} {bs as : Nat} {C : List (Column T)} (h : SideBySide before after bs as C) {t : Nat}
    (ht : SameAt C t) : Hit before after (bs + oldAt C t) (as + newAt C t) := by
  have h1 := ht.succ
  have h2 := at_length C (show t + 1 ≤ C.length from h1.1)
  exact (h _ _ (by omega) (by omega) (by omega) (by omega)).2 ⟨t, ht, rfl, rfl⟩

theorem SideBySide.run {before after : List T} {bs as : Nat} {C : List (Column T)} (h : SideBySide before after bs as C) {t n : Nat}
    (ht : ∀ k < n, SameAt C (t + k)) : CommonRun before after (bs + oldAt C t) (as + newAt C t) n := by
  intro k hk
  have := sameAt_run ht k (by omega)
  have := h.hit (ht k hk)
  rwa [show bs + oldAt C t + k = bs + oldAt C (t + k) by omega, show as + newAt C t + k = as + newAt C (t + k) by omega]

theorem SideBySide.sames {before after : List T} {bs as : Nat} {C : List (Column T)} (h : SideBySide before after bs as C) (hT : Tidy C)
    {t n : Nat} (ht : t ≤ C.length) (hr : CommonRun before after (bs + oldAt C t) (as + newAt C t) n)
    (hb : oldAt C t + n ≤ (olds C).length) (ha : newAt C t + n ≤ (news C).length) : ∀ k < n, SameAt C (t + k) := by
  intro k
  induction k using Nat.strongRecOn with
  | ind k ih =>
    intro hk
    have hp := sameAt_run (t := t) (n := k) (fun m hm => ih m hm (by omega)) k (by omega)
    obtain ⟨u, hu, e1, e2⟩ := (h _ _ (by omega) (by omega) (by omega) (by omega)).1 (hr k hk)
    have hle : t + k ≤ C.length := by
      cases k with
      | zero => exact ht
      | succ k => have := (ih k (by omega) (by omega)).succ; omega
    rw [at_unique hT hle (by have := hu.succ; omega) (u := u) (by omega) (by omega)]
    exact hu

theorem at_append_left (A B : List (Column T)) {t : Nat} (h : t ≤ A.length) :
    oldAt (A ++ B) t = oldAt A t ∧ newAt (A ++ B) t = newAt A t := by
  simp only [oldAt, newAt, List.take_append_of_le_length h, and_self]

theorem at_append_right (A B : List (Column T)) (t : Nat) :
    oldAt (A ++ B) (A.length + t) = (olds A).length + oldAt B t ∧ newAt (A ++ B) (A.length + t) = (news A).length + newAt B t := by
  simp only [oldAt, newAt, olds, news, List.take_length_add_append, List.flatMap_append, List.length_append, and_self]

theorem sameAt_append_left {A B : List (Column T)} {t : Nat} (h : t < A.length) : SameAt (A ++ B) t ↔ SameAt A t := by
  simp only [SameAt, List.getElem?_append_left h]

theorem sameAt_append_right {A B : List (Column T)} {t : Nat} : SameAt (A ++ B) (A.length + t) ↔ SameAt B t := by
  simp only [SameAt, List.getElem?_append_right (Nat.le_add_right _ _), Nat.add_sub_cancel_left]

theorem olds_append (A B : List (Column T)) : (olds (A ++ B)).length = (olds A).length + (olds B).length ∧
    (news (A ++ B)).length = (news A).length + (news B).length := by
  simp [olds, news]

/-- A part of the columns describes the part of the files it makes up. -/
theorem SideBySide.part {before after : List T} {bs as : Nat} {A B D : List (Column T)} (h : SideBySide before after bs as (A ++ (B ++ D))) :
    SideBySide before after (bs + (olds A).length) (as + (news A).length) B := by
  intro j i h1 h2 h3 h4
  have l1 := olds_append A (B ++ D)
  have l2 := olds_append B D
  rw [h j i (by omega) (by omega) (by omega) (by omega)]
  constructor
  · rintro ⟨t, ht, e1, e2⟩
    by_cases c1 : t < A.length
    · have := ht.succ
      have := at_append_left A (B ++ D) (show t + 1 ≤ A.length from c1)
      have := at_length A (show t + 1 ≤ A.length from c1)
      omega
    · obtain ⟨t, rfl⟩ := Nat.exists_eq_add_of_le (Nat.le_of_not_lt c1)
      have p1 := at_append_right A (B ++ D) t
      rw [sameAt_append_right] at ht
      by_cases c2 : t < B.length
      · have p2 := at_append_left B D (Nat.le_of_lt c2)
        exact ⟨t, (sameAt_append_left c2).1 ht, by omega, by omega⟩
      · obtain ⟨u, rfl⟩ := Nat.exists_eq_add_of_le (Nat.le_of_not_lt c2)
        have p2 := at_append_right B D u
        omega
  · rintro ⟨t, ht, e1, e2⟩
    have ht' := ht.succ.1
    have p1 := at_append_right A (B ++ D) t
    have p2 := at_append_left B D (Nat.le_of_lt ht')
    exact ⟨A.length + t, sameAt_append_right.2 ((sameAt_append_left ht').2 ht), by omega, by omega⟩

theorem leadOf_eq (C : List (Column T)) (e : Nat) (h : ∀ k < e, SameAt C k) (hn : ¬ SameAt C e) : leadOf C = e := by
  unfold leadOf
  induction C generalizing e with
  | nil =>
    cases e with
    | zero => rfl
    | succ e => obtain ⟨x, h⟩ := h 0 (by omega); simp at h
  | cons c C ih =>
    cases e with
    | zero =>
      cases c with
      | same x => exact absurd ⟨x, rfl⟩ hn
      | edit X Y => simp [Column.isSame]
    | succ e =>
      obtain ⟨x, hx⟩ := h 0 (by omega)
      simp only [List.getElem?_cons_zero, Option.some.injEq] at hx
      subst hx
      simp only [List.takeWhile_cons, Column.isSame, if_true, List.length_cons]
      rw [ih e (fun k hk => h (k + 1) (by omega)) hn]

theorem leadOf_same (C : List (Column T)) : leadOf C ≤ C.length ∧ ∀ k < leadOf C, SameAt C k := by
  unfold leadOf
  induction C with
  | nil => simp
  | cons c C ih =>
    cases c with
    | edit X Y => simp [Column.isSame]
    | same x =>
      simp only [List.takeWhile_cons, Column.isSame, if_true, List.length_cons]
      refine ⟨by omega, fun k hk => ?_⟩
      cases k with
      | zero => exact ⟨x, rfl⟩
      | succ k => exact ih.2 k (by omega)

theorem SideBySide.take {before after : List T} {bs as : Nat} {C : List (Column T)} (h : SideBySide before after bs as C) (u : Nat) :
    SideBySide before after bs as (C.take u) := by
  have := SideBySide.part (A := []) (B := C.take u) (D := C.drop u) (by rw [List.nil_append, List.take_append_drop]; exact h)
  exact this

theorem SideBySide.drop {before after : List T} {bs as : Nat} {C : List (Column T)} (h : SideBySide before after bs as C) (u : Nat) :
    SideBySide before after (bs + oldAt C u) (as + newAt C u) (C.drop u) :=
  SideBySide.part (A := C.take u) (B := C.drop u) (D := []) (by rw [List.append_nil, List.take_append_drop]; exact h)

theorem at_take (C : List (Column T)) {t u : Nat} (h : t ≤ u) : oldAt (C.take u) t = oldAt C t ∧ newAt (C.take u) t = newAt C t := by
  simp only [oldAt, newAt, List.take_take, Nat.min_eq_left h, and_self]

theorem at_drop (C : List (Column T)) {u : Nat} (hu : u ≤ C.length) (t : Nat) :
    oldAt C (u + t) = oldAt C u + oldAt (C.drop u) t ∧ newAt C (u + t) = newAt C u + newAt (C.drop u) t := by
  have := at_append_right (C.take u) (C.drop u) t
  rwa [List.take_append_drop, List.length_take, Nat.min_eq_left hu] at this

theorem takenOf_none (C : List (Column T)) (h : ∀ t, ¬ SameAt C t) (t : Nat) : (takenOf 0 false C)[t]? ≠ some true := by
  induction C generalizing t with
  | nil => simp [takenOf]
  | cons x l ih =>
    cases x with
    | same x => exact absurd ⟨x, rfl⟩ (h 0)
    | edit X Y =>
      simp only [takenOf]
      rw [if_neg (by omega)]
      cases t with
      | zero => simp
      | succ t => exact ih (fun t => h (t + 1)) t

theorem takenOf_decomp {before after : List T} {bs be as ae : Nat} {d : List CommonSubsequence}
    (h : Decomp before after bs be as ae d) (C : List (Column T)) (hT : Tidy C) (hA : SideBySide before after bs as C)
    (hb : be = bs + (olds C).length) (ha : ae = as + (news C).length) (j i : Nat) :
    Covered d j i ↔ ∃ t, (takenOf 0 false C)[t]? = some true ∧ j = bs + oldAt C t ∧ i = as + newAt C t := by
  induction h generalizing C j i with
  | @leaf bs be as ae h1 h2 hno =>
    subst hb ha
    have hn : ∀ t, ¬ SameAt C t := by
      intro t ht
      have := ht.succ
      have := at_length C (show t + 1 ≤ C.length by omega)
      exact hno _ _ (by omega) (by omega) (by omega) (by omega) (hA.hit ht)
    refine ⟨fun ⟨c, hc, _⟩ => by simp at hc, ?_⟩
    rintro ⟨t, ht, -⟩
    exact absurd ht (takenOf_none C hn t)
  | @node bs be as ae c dl dr hc hdl hdr ihl ihr =>
    obtain ⟨n, e, h1, h2, h3⟩ := hc
    obtain ⟨b, a, m⟩ := c
    have i1 := h1.inOld
    have i2 := h1.inNew
    have i3 := h1.pos
    have hin := h2.inside
    have hlong := h1.longest
    have hfirst := h1.first
    have hstop := h2.stop
    have hrun := h1.run
    have hrun2 := h2.run
    clear h1 h2
    simp only at *
    subst h3
    obtain ⟨t0, hs0, rfl, rfl⟩ := (hA b a (by omega) (by omega) (by omega) (by omega)).1 (by simpa using hrun 0 i3)
    have hl0 := hs0.succ.1
    have hsame := hA.sames hT (Nat.le_of_lt hl0) hrun (by omega) (by omega)
    have hpos := sameAt_run hsame
    have hn0 := hpos n (Nat.le_refl _)
    have hlen : t0 + n ≤ C.length := by
      have := (hsame (n - 1) (by omega)).succ.1
      omega
    -- no run of `n` equal lines begins earlier, and the run cannot be made longer
    have hlonger : ∀ u, (∀ k < n + 1, SameAt C (u + k)) → False := by
      intro u hu
      have p := sameAt_run hu (n + 1) (Nat.le_refl _)
      have := (hu n (by omega)).succ.1
      have q := at_length C (show u + (n + 1) ≤ C.length by omega)
      have := hlong _ _ (n + 1) (by omega) (by omega) (by omega) (by omega) (hA.run hu)
      omega
    have hearlier : ∀ u, u + n ≤ t0 → (∀ k < n, SameAt C (u + k)) → False := by
      intro u hlt hu
      have p := sameAt_run hu n (Nat.le_refl _)
      have q := at_length C (show u + n ≤ C.length by omega)
      have := (hfirst _ _ (by omega) (by omega) (by omega) (by omega) (hA.run hu)).1
      have := at_mono C hlt
      omega
    -- the three parts
    have hsplit : C = C.take t0 ++ ((C.drop t0).take n ++ C.drop (t0 + n)) := by
      rw [← List.drop_drop, List.take_append_drop, List.take_append_drop]
    have lenL : (C.take t0).length = t0 := by rw [List.length_take]; omega
    have lenS : ((C.drop t0).take n).length = n := by rw [List.length_take, List.length_drop]; omega
    have hS : AllSame ((C.drop t0).take n) := by
      intro c hc
      obtain ⟨k, hk, rfl⟩ := List.mem_iff_getElem.1 hc
      rw [lenS] at hk
      obtain ⟨x, hx⟩ := hsame k hk
      rw [List.getElem_take, List.getElem_drop]
      rw [List.getElem?_eq_getElem (by omega)] at hx
      injection hx with hx
      rw [hx]; rfl
    have hL : SameRunsBelow n 0 (C.take t0) := by
      refine sameRunsBelow_of n [] (C.take t0) (by intro c hc; cases hc) ?_ ?_
      · intro A S B hAB hSame hlS
        rw [List.nil_append] at hAB
        have hl := congrArg List.length hAB
        rw [lenL, List.length_append, List.length_append] at hl
        refine hearlier A.length (by omega) (fun k hk => ?_)
        rw [hsplit, hAB, List.append_assoc, List.append_assoc, sameAt_append_right, sameAt_append_left (by omega)]
        have := hSame S[k] (List.getElem_mem (by omega))
        cases hx : S[k] with
        | same x => exact ⟨x, by rw [List.getElem?_eq_getElem (by omega), hx]⟩
        | edit X Y => rw [hx] at this; cases this
      · intro A x hAB
        rw [List.nil_append] at hAB
        have hl := congrArg List.length hAB
        rw [lenL, List.length_append, List.length_singleton] at hl
        refine hlonger A.length (fun k hk => ?_)
        cases k with
        | zero =>
          rw [hsplit, hAB, List.append_assoc, sameAt_append_right]
          exact ⟨x, rfl⟩
        | succ k =>
          rw [show A.length + (k + 1) = t0 + k by omega]
          exact hsame k (by omega)
    have hR : C.drop (t0 + n) = [] ∧ e = 0 ∨
        ∃ X Y R', C.drop (t0 + n) = .edit X Y :: R' ∧ ((X.length = 1 ∧ Y.length = 1) ∧ leadOf R' = e ∧ e ≤ n ∨
          ¬ (X.length = 1 ∧ Y.length = 1) ∧ e = 0) := by
      by_cases hend : t0 + n = C.length
      · refine .inl ⟨List.drop_eq_nil_of_le (by omega), ?_⟩
        apply Classical.byContradiction
        intro he
        have := hin (by omega)
        have := at_full C
        rw [← hend] at this
        omega
      · have hx : C[t0 + n]? = some C[t0 + n] := List.getElem?_eq_getElem (by omega)
        cases hc : C[t0 + n] with
        | same x =>
          refine absurd (fun k hk => ?_) (hlonger t0)
          by_cases hkn : k = n
          · rw [hkn]; exact ⟨x, by rw [hx, hc]⟩
          · exact hsame k (by omega)
        | edit X Y =>
          rw [hc] at hx
          have hs := at_succ hx
          simp only [Column.old, Column.new] at hs
          refine .inr ⟨X, Y, C.drop (t0 + n + 1), by rw [List.drop_eq_getElem_cons (by omega), hc], ?_⟩
          by_cases hXY : X.length = 1 ∧ Y.length = 1
          · refine .inl ⟨hXY, ?_, ?_⟩
            · have hsames : ∀ k < e, SameAt C (t0 + n + 1 + k) := by
                intro k hk
                have := hin (by omega)
                refine hA.sames hT (n := e) (by omega) ?_ (by omega) (by omega) k hk
                rwa [show bs + oldAt C (t0 + n + 1) = bs + oldAt C t0 + n + 1 by omega,
                  show as + newAt C (t0 + n + 1) = as + newAt C t0 + n + 1 by omega]
              apply leadOf_eq
              · intro k hk
                obtain ⟨x, hx⟩ := hsames k hk
                exact ⟨x, by rw [List.getElem?_drop, hx]⟩
              · rintro ⟨x, hx⟩
                rw [List.getElem?_drop] at hx
                have hsx : SameAt C (t0 + n + 1 + e) := ⟨x, hx⟩
                have p := sameAt_run hsames e (Nat.le_refl _)
                have := hsx.succ
                have := at_length C (show t0 + n + 1 + e + 1 ≤ C.length by omega)
                have hh := hA.hit hsx
                rw [show bs + oldAt C (t0 + n + 1 + e) = bs + oldAt C t0 + n + 1 + e by omega,
                  show as + newAt C (t0 + n + 1 + e) = as + newAt C t0 + n + 1 + e by omega] at hh
                exact hstop (by omega) (by omega) hh
            · by_cases h0 : e = 0
              · omega
              · have := hin (by omega)
                exact hlong _ _ e (by omega) (by omega) (by omega) (by omega) hrun2
          · refine .inr ⟨hXY, ?_⟩
            apply Classical.byContradiction
            intro he
            have := hin (by omega)
            obtain ⟨u, hu, e1, e2⟩ := (hA _ _ (by omega) (by omega) (by omega) (by omega)).1 (hrun2 0 (by omega))
            have hu' := hu.succ.1
            rcases Nat.lt_trichotomy u (t0 + n + 1) with hlt | rfl | hgt
            · have := at_mono C (show u ≤ t0 + n by omega)
              omega
            · omega
            · have hy : C[t0 + n + 1]? = some C[t0 + n + 1] := List.getElem?_eq_getElem (by omega)
              have hed := hT.edit hx
              cases hz : C[t0 + n + 1] with
              | edit X' Y' => rw [hz] at hy; exact hed.2 X' Y' hy
              | same z =>
                rw [hz] at hy
                have hs' := at_succ hy
                simp only [Column.old, Column.new, List.length_singleton] at hs'
                have := at_mono C (show t0 + n + 1 + 1 ≤ u by omega)
                have hX : X = [] := List.length_eq_zero_iff.1 (by omega)
                have hY : Y = [] := List.length_eq_zero_iff.1 (by omega)
                rcases hed.1 with h | h <;> contradiction
    have hblock := takenOf_block e _ _ _ hS (by rwa [lenS]) (by rwa [lenS])
    rw [← hsplit, lenS, List.drop_drop] at hblock
    have hu : t0 + n + e ≤ C.length ∧ ∀ k ≤ n + e, oldAt C (t0 + k) = oldAt C t0 + k ∧ newAt C (t0 + k) = newAt C t0 + k := by
      rcases hR with ⟨-, rfl⟩ | ⟨X, Y, R', hd, ⟨hXY, rfl, -⟩ | ⟨-, rfl⟩⟩
      · exact ⟨hlen, hpos⟩
      · have hlt : t0 + n < C.length := by
          apply Classical.byContradiction
          intro hge
          rw [List.drop_eq_nil_of_le (by omega)] at hd
          cases hd
        rw [List.drop_eq_getElem_cons hlt] at hd
        injection hd with hd1 hd2
        have hx : C[t0 + n]? = some (.edit X Y) := by rw [List.getElem?_eq_getElem hlt, hd1]
        have hs := at_succ hx
        simp only [Column.old, Column.new] at hs
        have hll := leadOf_same R'
        have hlR : R'.length = C.length - (t0 + n + 1) := by rw [← hd2, List.length_drop]
        refine ⟨by omega, fun k hk => ?_⟩
        by_cases hkn : k ≤ n
        · exact hpos k hkn
        · have := sameAt_run (C := C) (t := t0 + n + 1) (n := leadOf R') (fun k hk => by
            obtain ⟨x, hx⟩ := hll.2 k hk
            rw [← hd2, List.getElem?_drop] at hx
            exact ⟨x, hx⟩) (k - n - 1) (by omega)
          rw [show t0 + n + 1 + (k - n - 1) = t0 + k by omega] at this
          omega
      · exact ⟨hlen, hpos⟩
    clear hR
    obtain ⟨hu, hposu⟩ := hu
    have hfull := hposu (n + e) (Nat.le_refl _)
    have hl := ihl (C.take t0) (hT.take t0) (hA.take t0) rfl rfl
    have htot := at_drop C hu (C.length - (t0 + n + e))
    rw [show t0 + n + e + (C.length - (t0 + n + e)) = C.length by omega, ← List.length_drop, (at_full C).1, (at_full C).2,
      (at_full (C.drop (t0 + n + e))).1, (at_full (C.drop (t0 + n + e))).2] at htot
    rw [← Nat.add_assoc] at hfull
    have hr := ihr (C.drop (t0 + n + e)) (hT.drop _) (by
      have := hA.drop (t0 + n + e)
      rwa [hfull.1, hfull.2, ← Nat.add_assoc bs, ← Nat.add_assoc as] at this) (by omega) (by omega)
    have lenT : (takenOf 0 false (C.take t0)).length = t0 := by rw [takenOf_length, lenL]
    rw [covered_node, hl, hr, hblock]
    constructor
    · rintro (⟨t, ht, e1, e2⟩ | ⟨k, hk, e1, e2⟩ | ⟨t, ht, e1, e2⟩)
      · have hlt : t < t0 := by
          have := (List.getElem?_eq_some_iff.1 ht).1
          omega
        have := at_take C (Nat.le_of_lt hlt)
        exact ⟨t, by rw [List.getElem?_append_left (by omega), ht], by omega, by omega⟩
      · simp only at hk e1 e2
        have := hposu k (by omega)
        refine ⟨t0 + k, ?_, by omega, by omega⟩
        rw [List.getElem?_append_right (by omega), lenT, List.getElem?_append_left (by rw [List.length_replicate]; omega),
          List.getElem?_replicate, if_pos (by omega)]
      · have := at_drop C hu t
        refine ⟨t0 + n + e + t, ?_, by omega, by omega⟩
        rw [List.getElem?_append_right (by omega), lenT, List.getElem?_append_right (by rw [List.length_replicate]; omega),
          List.length_replicate, show t0 + n + e + t - t0 - (n + e) = t by omega, ht]
    · rintro ⟨t, ht, e1, e2⟩
      by_cases c1 : t < t0
      · rw [List.getElem?_append_left (by omega)] at ht
        have := at_take C (Nat.le_of_lt c1)
        exact .inl ⟨t, ht, by omega, by omega⟩
      · by_cases c2 : t < t0 + n + e
        · have := hposu (t - t0) (by omega)
          rw [show t0 + (t - t0) = t by omega] at this
          exact .inr (.inl ⟨t - t0, by simp only; omega, by simp only; omega, by simp only; omega⟩)
        · obtain ⟨u, rfl⟩ := Nat.exists_eq_add_of_le (Nat.le_of_not_lt c2)
          rw [List.getElem?_append_right (by omega), lenT, List.getElem?_append_right (by rw [List.length_replicate]; omega),
            List.length_replicate, show t0 + n + e + u - t0 - (n + e) = u by omega] at ht
          have := at_drop C hu u
          exact .inr (.inr ⟨u, ht, by omega, by omega⟩)

theorem takenOf_same (run : Nat) (joined : Bool) (C : List (Column T)) (t : Nat) (h : SameAt C t) :
    (takenOf run joined C)[t]? = some true := by
  induction C generalizing run joined t with
  | nil => obtain ⟨x, h⟩ := h; simp at h
  | cons c C ih =>
    cases t with
    | zero =>
      obtain ⟨x, h⟩ := h
      simp only [List.getElem?_cons_zero, Option.some.injEq] at h
      subst h
      simp [takenOf]
    | succ t =>
      have h' : SameAt C t := by
        obtain ⟨x, h⟩ := h
        exact ⟨x, by simpa using h⟩
      cases c with
      | same x => simpa [takenOf] using ih _ _ t h'
      | edit X Y =>
        simp only [takenOf]
        split
        · simpa using ih _ _ t h'
        · simpa using ih _ _ t h'

/-- The number of equal lines at the end of `C`, when `run` of them stand before it. -/
def tailOf : Nat → List (Column T) → Nat
  | run, [] => run
  | run, .same _ :: rest => tailOf (run + 1) rest
  | _, .edit _ _ :: rest => tailOf 0 rest

/-- After each line that is replaced by one line there is no equal line (before the next edit), or there are more than just before
it. -/
def Growing (run : Nat) (C : List (Column T)) : Prop :=
  ∀ A x y B, C = A ++ .edit [x] [y] :: B → leadOf B = 0 ∨ tailOf run A < leadOf B

theorem growing_iff (run : Nat) (C : List (Column T)) :
    Growing run C ↔ ∀ t, (takenOf run false C)[t]? = some true → SameAt C t := by
  induction C generalizing run with
  | nil =>
    refine ⟨fun _ t h => by simp [takenOf] at h, fun _ A x y B e => ?_⟩
    cases A <;> cases e
  | cons c C ih =>
    cases c with
    | same z =>
      have e1 : Growing run (.same z :: C) ↔ Growing (run + 1) C := by
        constructor
        · intro h A x y B e
          exact h (.same z :: A) x y B (by rw [e]; rfl)
        · intro h A x y B e
          cases A with
          | nil => cases e
          | cons c A =>
            injection e with e1 e2
            subst e1
            exact h A x y B e2
      rw [e1, ih]
      simp only [takenOf, Bool.false_eq_true, if_false]
      constructor
      · intro h t ht
        cases t with
        | zero => exact ⟨z, rfl⟩
        | succ t => exact h t (by simpa using ht)
      · intro h t ht
        exact h (t + 1) (by simpa using ht)
    | edit X Y =>
      have e1 : Growing run (.edit X Y :: C) ↔
          ¬ ((X.length = 1 ∧ Y.length = 1) ∧ 0 < leadOf C ∧ leadOf C ≤ run) ∧ Growing 0 C := by
        constructor
        · intro h
          refine ⟨?_, fun A x y B e => h (.edit X Y :: A) x y B (by rw [e]; rfl)⟩
          rintro ⟨⟨h1, h2⟩, h3, h4⟩
          obtain ⟨x, rfl⟩ := List.length_eq_one_iff.1 h1
          obtain ⟨y, rfl⟩ := List.length_eq_one_iff.1 h2
          have := h [] x y C rfl
          simp only [tailOf] at this
          omega
        · rintro ⟨h1, h2⟩ A x y B e
          cases A with
          | nil =>
            injection e with e1 e2
            injection e1 with e3 e4
            subst e2 e3 e4
            simp only [List.length_cons, List.length_nil, Nat.zero_add, true_and, tailOf] at *
            omega
          | cons c A =>
            injection e with e1 e2
            subst e1
            exact h2 A x y B e2
      rw [e1, ih]
      simp only [takenOf]
      split
      · next hc =>
        refine ⟨fun h => absurd hc h.1, fun h => ?_⟩
        obtain ⟨x, h⟩ := h 0 rfl
        simp at h
      · next hc =>
        constructor
        · rintro ⟨-, h⟩ t ht
          cases t with
          | zero => simp at ht
          | succ t => exact h t (by simpa using ht)
        · intro h
          exact ⟨hc, fun t ht => h (t + 1) (by simpa using ht)⟩

end

section

variable {T : Type} [DecidableEq T] [Item T] [LawfulItem T]

/-- The lines that the two files have in common are the columns of equal lines, and no others: a line of the one that was edited is
not in the other, and no line is found at another place too. -/
def Faithful {T : Type} (C : List (Column T)) : Prop :=
  ∀ j i, Hit (olds C) (news C) j i → ∃ t, SameAt C t ∧ j = oldAt C t ∧ i = newAt C t

omit [DecidableEq T] [Item T] [LawfulItem T] in
theorem sameAt_hit {C : List (Column T)} {t : Nat} (h : SameAt C t) : Hit (olds C) (news C) (oldAt C t) (newAt C t) := by
  obtain ⟨x, h⟩ := h
  obtain ⟨hlt, hx⟩ := List.getElem?_eq_some_iff.1 h
  have e : C = C.take t ++ .same x :: C.drop (t + 1) := by
    rw [← hx, ← List.drop_eq_getElem_cons hlt, List.take_append_drop]
  have h1 : olds C = olds (C.take t) ++ x :: olds (C.drop (t + 1)) := by
    conv => lhs; rw [e]
    simp only [olds, List.flatMap_append, List.flatMap_cons, Column.old, List.singleton_append]
  have h2 : news C = news (C.take t) ++ x :: news (C.drop (t + 1)) := by
    conv => lhs; rw [e]
    simp only [news, List.flatMap_append, List.flatMap_cons, Column.new, List.singleton_append]
  refine ⟨x, ?_, ?_⟩
  · rw [h1, oldAt, List.getElem?_append_right (Nat.le_refl _), Nat.sub_self]
    rfl
  · rw [h2, newAt, List.getElem?_append_right (Nat.le_refl _), Nat.sub_self]
    rfl

/-- Two files whose common lines are unique and in order. Lines are taken as unchanged as `takenOf` says; all others are recorded as
deleted, inserted or replaced. -/
theorem C136_changes (p : Profile) (C : List (Column T)) (hT : Tidy C) (hF : Faithful C) :
    ∃ changes, changesOf p (olds C) (news C) = .ok changes ∧
      ∀ j i, Kept changes j i ↔ ∃ t, (takenOf 0 false C)[t]? = some true ∧ j = oldAt C t ∧ i = newAt C t := by
  obtain ⟨changes, hc⟩ : ∃ changes, changesOf p (olds C) (news C) = .ok changes := C11_total p _ _
  obtain ⟨-, -, -, d, hdc, hk⟩ := (C70_changes p _ _ changes).1 hc
  refine ⟨changes, hc, fun j i => ?_⟩
  rw [hk, takenOf_decomp hdc C hT (fun j i _ _ _ _ => ⟨fun h => by simpa using hF j i h, ?_⟩) (by omega) (by omega)]
  · simp only [Nat.zero_add]
  · rintro ⟨t, ht, rfl, rfl⟩
    simpa using sameAt_hit ht

/-- All changes are found if and only if after each line replaced by one line there is no equal line up to the next edit, or there
are more than just before it. -/
theorem C136_found (p : Profile) (C : List (Column T)) (hT : Tidy C) (hF : Faithful C) :
    ∃ changes, changesOf p (olds C) (news C) = .ok changes ∧
      ((∀ j i, Kept changes j i ↔ Hit (olds C) (news C) j i) ↔ Growing 0 C) := by
  obtain ⟨changes, hc, hk⟩ := C136_changes p C hT hF
  refine ⟨changes, hc, ?_⟩
  rw [growing_iff]
  constructor
  · intro h t ht
    obtain ⟨u, hu, e1, e2⟩ := hF _ _ ((h _ _).1 ((hk _ _).2 ⟨t, ht, rfl, rfl⟩))
    have h1 := (List.getElem?_eq_some_iff.1 ht).1
    rw [takenOf_length] at h1
    rw [at_unique hT (by omega) (Nat.le_of_lt hu.succ.1) e1 e2]
    exact hu
  · intro h j i
    rw [hk]
    constructor
    · rintro ⟨t, ht, rfl, rfl⟩
      exact sameAt_hit (h t ht)
    · intro hh
      obtain ⟨t, ht, e1, e2⟩ := hF _ _ hh
      exact ⟨t, takenOf_same _ _ _ _ ht, e1, e2⟩

/-- No change is lost when no single line was replaced by a single line. -/
theorem C136_several (p : Profile) (C : List (Column T)) (hT : Tidy C) (hF : Faithful C) (hs : ∀ x y, .edit [x] [y] ∉ C) :
    ∃ changes, changesOf p (olds C) (news C) = .ok changes ∧ ∀ j i, Kept changes j i ↔ Hit (olds C) (news C) j i := by
  obtain ⟨changes, hc, hk⟩ := C136_found p C hT hF
  refine ⟨changes, hc, hk.2 fun A x y B e => absurd ?_ (hs x y)⟩
  rw [e]; simp

/-- What a patch without context makes of its own source: where a column was taken as unchanged, the line of the old file; otherwise
the line of the new file. It is the new file if and only if all changes were found. -/
theorem C136_result (p q : Profile) (C : List (Column T)) (hT : Tidy C) (hF : Faithful C) (hb : (olds C).length ≤ maxLines)
    (ha : (news C).length ≤ maxLines) (cs : List (DiffClump T)) (h : diffClumps p (olds C) (news C) 0 = .ok cs) :
    ∃ text, (applyInto q cs (olds C) false).run = (.ok { clean := cs.length }, bytesOf text) ∧
      (∀ t, (takenOf 0 false C)[t]? = some true → text[newAt C t]? = (olds C)[oldAt C t]?) ∧
      (∀ i : Nat, (∀ t, (takenOf 0 false C)[t]? = some true → i ≠ newAt C t) → text[i]? = (news C)[i]?) ∧
      (text = news C ↔ Growing 0 C) := by
  obtain ⟨changes, hch, hk⟩ := C136_changes p C hT hF
  obtain ⟨text, e, hl, hx⟩ := C97_partial p q _ _ 0 (by decide) hb ha changes cs hch h
  have hlo : ∀ j i, LeftOut 0 changes j i ↔ Kept changes j i := by
    intro j i
    constructor
    · rintro ⟨pre, c, post, t, e, t1, t2, t3, -⟩
      exact ⟨c, by rw [e]; simp, t, t1, t2, t3⟩
    · rintro ⟨c, hc, t, t1, t2, t3⟩
      obtain ⟨pre, post, e⟩ := List.append_of_mem hc
      exact ⟨pre, c, post, t, e, t1, t2, t3, fun _ => by omega, fun _ => by omega⟩
  have h1 : ∀ t, (takenOf 0 false C)[t]? = some true → text[newAt C t]? = (olds C)[oldAt C t]? := fun t ht =>
    (hx _).1 _ ((hlo _ _).2 ((hk _ _).2 ⟨t, ht, rfl, rfl⟩))
  have h2 : ∀ i : Nat, (∀ t, (takenOf 0 false C)[t]? = some true → i ≠ newAt C t) → text[i]? = (news C)[i]? := fun i hi =>
    (hx _).2 fun j hj => by
      obtain ⟨t, ht, -, e⟩ := (hk _ _).1 ((hlo _ _).1 hj)
      exact hi t ht e
  refine ⟨text, e, h1, h2, ?_⟩
  rw [growing_iff]
  constructor
  · intro he t ht
    have := h1 t ht
    rw [he] at this
    obtain ⟨c, hc, s, s1, s2, s3⟩ := (hk _ _).2 ⟨t, ht, rfl, rfl⟩
    have hlt : newAt C t < (news C).length := by
      obtain ⟨pre, post, e⟩ := List.append_of_mem hc
      have htl := ((C70_changes p _ _ changes).1 hch).1
      have hat := (e ▸ htl : Tiles 0 0 (pre ++ .noChange c :: post) (olds C).length (news C).length).at
      have hle := hat.2.2.2.le
      simp only [Change.new] at hle
      omega
    obtain ⟨u, hu, e1, e2⟩ := hF (oldAt C t) (newAt C t) ⟨(news C)[newAt C t], by rw [← this, List.getElem?_eq_getElem hlt],
      List.getElem?_eq_getElem hlt⟩
    have h1 := (List.getElem?_eq_some_iff.1 ht).1
    rw [takenOf_length] at h1
    rw [at_unique hT (by omega) (Nat.le_of_lt hu.succ.1) e1 e2]
    exact hu
  · intro hg
    apply List.ext_getElem?
    intro i
    by_cases hi : ∃ t, (takenOf 0 false C)[t]? = some true ∧ i = newAt C t
    · obtain ⟨t, ht, rfl⟩ := hi
      obtain ⟨x, a, b⟩ := sameAt_hit (hg t ht)
      rw [h1 t ht, a, b]
    · exact h2 i fun t ht e => hi ⟨t, ht, e⟩

/-- When all changes are found, the patch makes the new file of the old one, with any context. -/
theorem C136_carried (p q : Profile) (C : List (Column T)) (hT : Tidy C) (hF : Faithful C) (hg : Growing 0 C) (context : Nat)
    (hctx : context ≤ 255) (hb : (olds C).length ≤ maxLines) (ha : (news C).length ≤ maxLines) (cs : List (DiffClump T))
    (h : diffClumps p (olds C) (news C) context = .ok cs) :
    (applyInto q cs (olds C) false).run = (.ok { clean := cs.length }, bytesOf (news C)) := by
  obtain ⟨changes, hc, hk⟩ := C136_found p C hT hF
  obtain ⟨text, e, hl, hx⟩ := C97_partial p q _ _ context hctx hb ha changes cs hc h
  rw [e]
  suffices text = news C by rw [this]
  apply List.ext_getElem?
  intro i
  by_cases hi : ∃ j, LeftOut context changes j i
  · obtain ⟨j, hj⟩ := hi
    rw [(hx i).1 j hj]
    obtain ⟨pre, c, post, t, e, t1, t2, t3, -⟩ := hj
    obtain ⟨x, a, b⟩ := (hk.2 hg j i).1 ⟨c, by rw [e]; simp, t, t1, t2, t3⟩
    rw [a, b]
  · exact (hx i).2 fun j hj => hi ⟨j, hj⟩

/-- For examples. -/
theorem faithful_of_check {T : Type} [DecidableEq T] {C : List (Column T)} (h : ∀ j < (olds C).length, ∀ i < (news C).length,
    hitB (olds C) (news C) j i = true → ∃ t < C.length, (C[t]?.any Column.isSame) = true ∧ j = oldAt C t ∧ i = newAt C t) : Faithful C := by
  intro j i hh
  obtain ⟨x, h1, h2⟩ := hh
  obtain ⟨t, -, ht, e⟩ := h j (List.getElem?_eq_some_iff.1 h1).1 i (List.getElem?_eq_some_iff.1 h2).1 ((hitB_iff _ _ _ _).2 ⟨x, h1, h2⟩)
  refine ⟨t, ?_, e⟩
  cases hc : C[t]? with
  | none => rw [hc] at ht; simp at ht
  | some c =>
    rw [hc] at ht
    cases c with
    | same x => exact ⟨x, hc⟩
    | edit X Y => simp [Column.isSame] at ht

/-- A line is inserted, a line is replaced, two lines are deleted; the replaced line is lost. -/
def lossy : List (Column UInt8) :=
  [.edit [] [9], .same 1, .same 2, .edit [3] [33], .same 4, .same 5, .edit [6, 7] [], .same 8]

/-- The same with one more line after the replaced line: all is found. -/
def lossless : List (Column UInt8) :=
  [.edit [] [9], .same 1, .same 2, .edit [3] [33], .same 4, .same 5, .same 50, .edit [6, 7] [], .same 8]

theorem lossy_tidy : Tidy lossy := by simp [lossy, Tidy]
theorem lossless_tidy : Tidy lossless := by simp [lossless, Tidy]
theorem lossy_faithful : Faithful lossy := faithful_of_check (by decide +kernel)
theorem lossless_faithful : Faithful lossless := faithful_of_check (by decide +kernel)

theorem lossless_growing : Growing 0 lossless := by
  rw [growing_iff]
  intro t ht
  have e : takenOf 0 false lossless = [false, true, true, false, true, true, true, false, true] := by decide +kernel
  rw [e] at ht
  have := (List.getElem?_eq_some_iff.1 ht).1
  simp only [List.length_cons, List.length_nil] at this
  have hc : t = 0 ∨ t = 1 ∨ t = 2 ∨ t = 3 ∨ t = 4 ∨ t = 5 ∨ t = 6 ∨ t = 7 ∨ t = 8 := by omega
  rcases hc with rfl | rfl | rfl | rfl | rfl | rfl | rfl | rfl | rfl <;> first | exact ⟨_, rfl⟩ | simp at ht

theorem lossy_not_growing : ¬ Growing 0 lossy := by
  intro h
  have := h [.edit [] [9], .same 1, .same 2] 3 33 [.same 4, .same 5, .edit [6, 7] [], .same 8] rfl
  revert this
  decide

/-- What one may expect: where the common lines are unique and in order, a patch carries over all changes. -/
def C136_statement : Prop :=
  ∀ (p q : Profile) (C : List (Column UInt8)) (cs : List (DiffClump UInt8)), Tidy C → Faithful C →
    diffClumps p (olds C) (news C) 0 = .ok cs → (applyInto q cs (olds C) false).run.2 = bytesOf (news C)

theorem C136_refuted : ¬ C136_statement := by
  intro h
  have := h .debug .debug lossy [⟨(0, 0), ⟨0, []⟩, ⟨0, [9]⟩⟩, ⟨(0, 0), ⟨5, [6, 7]⟩, ⟨6, []⟩⟩] lossy_tidy lossy_faithful (by decide +kernel)
  revert this
  decide +kernel

example := C136_changes .debug lossy lossy_tidy lossy_faithful
example := C136_found .release lossless lossless_tidy lossless_faithful
example := C136_several .debug ([.edit [] [9], .same 1, .same 2, .edit [3, 4] [33], .same 5] : List (Column UInt8)) (by simp [Tidy])
  (faithful_of_check (by decide +kernel)) (by simp)
example := C136_result .debug .release lossy lossy_tidy lossy_faithful (by decide) (by decide) _
  (by decide +kernel : diffClumps .debug (olds lossy) (news lossy) 0 = .ok [⟨(0, 0), ⟨0, []⟩, ⟨0, [9]⟩⟩, ⟨(0, 0), ⟨5, [6, 7]⟩, ⟨6, []⟩⟩])
example := C136_carried .debug .release lossless lossless_tidy lossless_faithful lossless_growing 0 (by decide) (by decide) (by decide) _
  (by decide +kernel : diffClumps .debug (olds lossless) (news lossless) 0 = .ok [⟨(0, 0), ⟨0, []⟩, ⟨0, [9]⟩⟩,
    ⟨(0, 0), ⟨2, [3]⟩, ⟨3, [33]⟩⟩, ⟨(0, 0), ⟨6, [6, 7]⟩, ⟨7, []⟩⟩])

end

/-- In the programs: when after each line replaced by one line there is no equal line up to the next edit, or there are more than just
before it, the patch makes the new file of the old one, and with `-R` it is taken back. -/
theorem C136_session (p q : Profile) (temp patch before after : Path) (context : Nat) (w : World) (s t : Str)
    (hw : Fresh w patch temp) (hctx : context ≤ 255) (hub : IsUtf8 before) (hua : IsUtf8 after)
    (hb : w.fs.contentAt before = some ⟨s.bytes, false⟩) (ha : w.fs.contentAt after = some ⟨t.bytes, false⟩)
    (C : List (Column Str)) (hs : splitInclusive s = olds C) (ht : splitInclusive t = news C) (hT : Tidy C) (hF : Faithful C)
    (hg : Growing 0 C) (hsb : (splitInclusive s).length ≤ maxLines) (hst : (splitInclusive t).length ≤ maxLines) :
    ∃ patchContent : List UInt8, session p q temp patch before after context w =
      ((.exited 0, { w with stdout := patchContent }),
       (.exited 0, { w with fs := (w.fs.set (w.fs.entry patch) (some (.file patchContent))).set (w.fs.entry before) (some (.file t.bytes)) }),
       (.exited 0, { w with fs := (w.fs.set (w.fs.entry patch) (some (.file patchContent))).set (w.fs.entry before) (some (.file s.bytes)) })) := by
  obtain ⟨c, cs, out, h1, h2, h3⟩ := session_result p q temp patch before after context w s t hw hctx hub hua hb ha hsb hst
  have h4 := C136_carried p q C hT hF hg context hctx (by rwa [← hs]) (by rwa [← ht]) cs (by rwa [← hs, ← ht])
  rw [← hs, h2, ← ht] at h4
  have e : bytesOf (splitInclusive t) = t.bytes := by
    show (splitInclusive t).flatMap Str.bytes = _
    rw [flatMap_bytes, flatten_splitInclusive]
  rw [e] at h4
  cases h4
  exact ⟨c, h3⟩

/-- A line is inserted and a line is replaced. -/
example (p q : Profile) : ∃ r,
    (session p q [84] [80] [65] [67] 3 ⟨FS.ofFiles [([65], Str.bytes (['a', '\n', 'b', '\n', 'c', '\n'])),
      ([67], Str.bytes (['X', '\n', 'a', '\n', 'b', '\n', 'Y', '\n']))], [], []⟩).2.1 = (.exited 0, r) ∧
      r.fs.contentAt [65] = some ⟨Str.bytes (['X', '\n', 'a', '\n', 'b', '\n', 'Y', '\n']), false⟩ := by
  obtain ⟨e1, e2, e3, e3', e4, e5, e6, e6', e7, e8⟩ := FS.ofFiles_two
    (Str.bytes (['a', '\n', 'b', '\n', 'c', '\n'])) (Str.bytes (['X', '\n', 'a', '\n', 'b', '\n', 'Y', '\n']))
  generalize FS.ofFiles [([65], Str.bytes (['a', '\n', 'b', '\n', 'c', '\n'])),
    ([67], Str.bytes (['X', '\n', 'a', '\n', 'b', '\n', 'Y', '\n']))] = fs at *
  obtain ⟨_, e⟩ := C136_session p q [84] [80] [65] [67] 3 ⟨fs, [], []⟩
    ['a', '\n', 'b', '\n', 'c', '\n'] ['X', '\n', 'a', '\n', 'b', '\n', 'Y', '\n']
    ⟨rfl, rfl, by simp [e3', e6], by simp [e3, e6'], by simp [e3, e3']⟩ (by decide) ⟨['A'], by decide⟩ ⟨['C'], by decide⟩ e7 e8
    [.edit [] [['X', '\n']], .same ['a', '\n'], .same ['b', '\n'], .edit [['c', '\n']] [['Y', '\n']]] (by decide +kernel) (by decide +kernel)
    (by simp [Tidy]) (faithful_of_check (by decide +kernel)) (by
      intro A x y B e
      match A, e with
      | [], e => injection e with e1 e2; injection e1 with e1 e2; cases e1
      | [_], e => injection e with e1 e2; injection e2 with e2 e3; cases e2
      | [_, _], e => injection e with e1 e2; injection e2 with e2 e3; injection e3 with e3 e4; cases e3
      | [_, _, _], e =>
        simp only [List.cons_append, List.nil_append, List.cons.injEq] at e
        obtain ⟨-, -, -, -, rfl⟩ := e
        exact .inl rfl
      | _ :: _ :: _ :: _ :: A, e => simp at e) (by decide +kernel) (by decide +kernel)
  rw [e]
  exact ⟨_, rfl, FS.contentAt_of_file (by simp)⟩

end PwDiff
