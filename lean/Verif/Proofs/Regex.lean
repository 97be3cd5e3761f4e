import Verif.Model.Regex

/-! # Facts about the regular expression matcher -/

namespace PwDiff

namespace Rx

/-- The strings an expression matches. -/
def Lang : Rx → Str → Prop
  | eps, w => w = []
  | cls p, w => ∃ c, w = [c] ∧ p c = true
  | seq a b, w => ∃ u v, w = u ++ v ∧ Lang a u ∧ Lang b v
  | alt a b, w => Lang a w ∨ Lang b w
  | opt a, w => w = [] ∨ Lang a w
  | star p, w => ∀ c ∈ w, p c = true
  | grp _ a, w => Lang a w

/-- The numbers of the groups of an expression. -/
def groups : Rx → List Nat
  | eps => []
  | cls _ => []
  | seq a b => groups a ++ groups b
  | alt a b => groups a ++ groups b
  | opt a => groups a
  | star _ => []
  | grp n a => n :: groups a

theorem starRun_some {β : Type} {p : Char → Bool} {caps : Caps} {k : Str → Caps → Option β} {s : Str} {b : β}
    (h : starRun p caps k s = some b) : ∃ w rest, s = w ++ rest ∧ (∀ c ∈ w, p c = true) ∧ k rest caps = some b := by
  induction s with
  | nil => exact ⟨[], [], rfl, by simp, h⟩
  | cons c cs ih =>
    unfold starRun at h
    split at h
    · rename_i hp
      rw [Option.or_eq_some_iff] at h
      rcases h with h | ⟨-, h⟩
      · obtain ⟨w, rest, h1, h2, h3⟩ := ih h
        exact ⟨c :: w, rest, by simp [h1], by simpa [hp] using h2, h3⟩
      · exact ⟨[], c :: cs, rfl, by simp, h⟩
    · exact ⟨[], c :: cs, rfl, by simp, h⟩

/-- A successful match consumes a string of the expression and touches only its own groups. -/
theorem run_some {β : Type} (r : Rx) {s : Str} {caps : Caps} {k : Str → Caps → Option β} {b : β}
    (h : run r s caps k = some b) :
    ∃ w rest caps', s = w ++ rest ∧ Lang r w ∧ k rest caps' = some b ∧
      ∀ n, n ∉ groups r → Caps.get caps' n = Caps.get caps n := by
  induction r generalizing s caps k b with
  | eps => exact ⟨[], s, caps, rfl, rfl, h, fun _ _ => rfl⟩
  | cls p =>
    unfold run at h
    cases s with
    | nil => simp at h
    | cons c cs =>
      simp only at h
      split at h
      · rename_i hp
        exact ⟨[c], cs, caps, rfl, ⟨c, rfl, hp⟩, h, fun _ _ => rfl⟩
      · simp at h
  | seq a b iha ihb =>
    unfold run at h
    obtain ⟨u, s1, c1, e1, l1, k1, g1⟩ := iha h
    obtain ⟨v, s2, c2, e2, l2, k2, g2⟩ := ihb k1
    refine ⟨u ++ v, s2, c2, by simp [e1, e2], ⟨u, v, rfl, l1, l2⟩, k2, ?_⟩
    intro n hn
    simp only [groups, List.mem_append, not_or] at hn
    rw [g2 n hn.2, g1 n hn.1]
  | alt a b iha ihb =>
    unfold run at h
    rw [Option.or_eq_some_iff] at h
    rcases h with h | ⟨-, h⟩
    · obtain ⟨u, s1, c1, e1, l1, k1, g1⟩ := iha h
      exact ⟨u, s1, c1, e1, .inl l1, k1, fun n hn => g1 n (by simp [groups] at hn; exact hn.1)⟩
    · obtain ⟨u, s1, c1, e1, l1, k1, g1⟩ := ihb h
      exact ⟨u, s1, c1, e1, .inr l1, k1, fun n hn => g1 n (by simp [groups] at hn; exact hn.2)⟩
  | opt a iha =>
    unfold run at h
    rw [Option.or_eq_some_iff] at h
    rcases h with h | ⟨-, h⟩
    · obtain ⟨u, s1, c1, e1, l1, k1, g1⟩ := iha h
      exact ⟨u, s1, c1, e1, .inr l1, k1, g1⟩
    · exact ⟨[], s, caps, rfl, .inl rfl, h, fun _ _ => rfl⟩
  | star p =>
    unfold run at h
    obtain ⟨w, rest, h1, h2, h3⟩ := starRun_some h
    exact ⟨w, rest, caps, h1, h2, h3, fun _ _ => rfl⟩
  | grp m a iha =>
    unfold run at h
    obtain ⟨u, s1, c1, e1, l1, k1, g1⟩ := iha h
    refine ⟨u, s1, _, e1, l1, k1, ?_⟩
    intro n hn
    simp only [groups, List.mem_cons, not_or] at hn
    rw [← g1 n hn.2]
    simp [Caps.get, List.lookup, beq_false_of_ne hn.1]

/-- If what follows a string of the expression is always accepted, there is a match. -/
theorem run_isSome {β : Type} (r : Rx) {w rest : Str} {caps : Caps} {k : Str → Caps → Option β} (h : Lang r w)
    (hk : ∀ caps', (k rest caps').isSome = true) : (run r (w ++ rest) caps k).isSome = true := by
  induction r generalizing w rest caps k with
  | eps =>
    simp only [Lang] at h
    subst h
    exact hk caps
  | cls p =>
    obtain ⟨c, rfl, hc⟩ := h
    simp [run, hc, hk]
  | seq a b iha ihb =>
    obtain ⟨u, v, rfl, l1, l2⟩ := h
    unfold run
    rw [List.append_assoc]
    exact iha l1 fun c => ihb l2 hk
  | alt a b iha ihb =>
    unfold run
    rw [Option.isSome_or, Bool.or_eq_true]
    rcases h with h | h
    · exact .inl (iha h hk)
    · exact .inr (ihb h hk)
  | opt a iha =>
    unfold run
    rw [Option.isSome_or, Bool.or_eq_true]
    rcases h with h | h
    · subst h
      exact .inr (hk caps)
    · exact .inl (iha h hk)
  | star p =>
    unfold run
    simp only [Lang] at h
    induction w with
    | nil =>
      cases rest with
      | nil => exact hk caps
      | cons c cs =>
        simp only [List.nil_append]
        unfold starRun
        split
        · rw [Option.isSome_or, Bool.or_eq_true]
          exact .inr (hk caps)
        · exact hk caps
    | cons c cs ih =>
      rw [List.cons_append]
      unfold starRun
      rw [if_pos (h c (by simp)), Option.isSome_or, Bool.or_eq_true]
      exact .inl (ih fun x hx => h x (by simp [hx]))
  | grp n a iha =>
    unfold run
    exact iha h fun c => hk _

/-- `captures` succeeds exactly on the strings of the expression. -/
theorem captures_isSome_iff (r : Rx) (line : Str) : (captures r line).isSome = true ↔ Lang r line := by
  constructor
  · intro h
    obtain ⟨b, hb⟩ := Option.isSome_iff_exists.1 h
    obtain ⟨w, rest, caps', e1, l1, k1, -⟩ := run_some r hb
    split at k1
    · rename_i hr
      rw [List.isEmpty_iff] at hr
      subst hr
      rw [e1, List.append_nil]
      exact l1
    · simp at k1
  · intro h
    have := run_isSome (rest := []) (caps := []) (k := fun s caps => if s.isEmpty then some caps else none) r h
      (fun _ => rfl)
    rwa [List.append_nil] at this

/-! ## Deterministic steps -/

/-- Greedy repetition takes everything if the rest does not accept to begin with a character of the class. -/
theorem starRun_det {β : Type} {p : Char → Bool} {caps : Caps} {k : Str → Caps → Option β}
    (hk : ∀ c cs, p c = true → k (c :: cs) caps = none) (w rest : Str) (hw : ∀ c ∈ w, p c = true)
    (hr : ∀ c cs, rest = c :: cs → p c = false) : starRun p caps k (w ++ rest) = k rest caps := by
  induction w with
  | nil =>
    cases rest with
    | nil => rfl
    | cons c cs =>
      rw [List.nil_append]
      unfold starRun
      rw [if_neg (by simp [hr c cs rfl])]
  | cons c w ih =>
    rw [List.cons_append]
    unfold starRun
    rw [if_pos (hw c (by simp)), ih fun x hx => hw x (by simp [hx]), hk _ _ (hw c (by simp)), Option.or_none]

/-- Greedy repetition takes everything if the rest accepts then. -/
theorem starRun_greedy {β : Type} {p : Char → Bool} {caps : Caps} {k : Str → Caps → Option β} {b : β} (w rest : Str)
    (hw : ∀ c ∈ w, p c = true) (hr : ∀ c cs, rest = c :: cs → p c = false) (hk : k rest caps = some b) :
    starRun p caps k (w ++ rest) = some b := by
  induction w with
  | nil =>
    cases rest with
    | nil => exact hk
    | cons c cs =>
      rw [List.nil_append]
      unfold starRun
      rw [if_neg (by simp [hr c cs rfl]), hk]
  | cons c w ih =>
    rw [List.cons_append]
    unfold starRun
    rw [if_pos (hw c (by simp)), ih fun x hx => hw x (by simp [hx]), Option.some_or]

theorem run_plus_det {β : Type} {p : Char → Bool} {caps : Caps} {k : Str → Caps → Option β}
    (hk : ∀ c cs, p c = true → k (c :: cs) caps = none) (w rest : Str) (hne : w ≠ []) (hw : ∀ c ∈ w, p c = true)
    (hr : ∀ c cs, rest = c :: cs → p c = false) : run (plus p) (w ++ rest) caps k = k rest caps := by
  cases w with
  | nil => exact absurd rfl hne
  | cons c w =>
    unfold plus
    simp only [run, List.cons_append]
    rw [if_pos (hw c (by simp))]
    exact starRun_det hk w rest (fun x hx => hw x (by simp [hx])) hr

theorem run_plus_greedy {β : Type} {p : Char → Bool} {caps : Caps} {k : Str → Caps → Option β} {b : β} (w rest : Str)
    (hne : w ≠ []) (hw : ∀ c ∈ w, p c = true) (hr : ∀ c cs, rest = c :: cs → p c = false) (hk : k rest caps = some b) :
    run (plus p) (w ++ rest) caps k = some b := by
  cases w with
  | nil => exact absurd rfl hne
  | cons c w =>
    unfold plus
    simp only [run, List.cons_append]
    rw [if_pos (hw c (by simp))]
    exact starRun_greedy w rest (fun x hx => hw x (by simp [hx])) hr hk

/-- `plus` fails on a string that does not begin with a character of the class. -/
theorem run_plus_fail {β : Type} {p : Char → Bool} {caps : Caps} {k : Str → Caps → Option β} (s : Str)
    (h : ∀ c cs, s = c :: cs → p c = false) : run (plus p) s caps k = none := by
  cases s with
  | nil => rfl
  | cons c cs => simp [plus, run, h c cs rfl]

theorem run_chr {β : Type} (c : Char) (cs : Str) (caps : Caps) (k : Str → Caps → Option β) :
    run (chr c) (c :: cs) caps k = k cs caps := by simp [chr, run]

theorem run_chr_fail {β : Type} (c : Char) (s : Str) (caps : Caps) (k : Str → Caps → Option β)
    (h : ∀ d cs, s = d :: cs → d ≠ c) : run (chr c) s caps k = none := by
  cases s with
  | nil => rfl
  | cons d cs => simp [chr, run, h d cs rfl]

theorem run_lit {β : Type} (l s : Str) (caps : Caps) (k : Str → Caps → Option β) :
    run (lit l) (l ++ s) caps k = k s caps := by
  induction l with
  | nil => rfl
  | cons c cs ih =>
    unfold lit
    simp only [run, List.cons_append]
    rw [run_chr]
    exact ih

theorem run_rep {β : Type} (n : Nat) (p : Char → Bool) (w s : Str) (hn : w.length = n) (hw : ∀ c ∈ w, p c = true)
    (caps : Caps) (k : Str → Caps → Option β) : run (rep n p) (w ++ s) caps k = k s caps := by
  induction n generalizing w with
  | zero =>
    rw [List.length_eq_zero_iff] at hn
    subst hn
    rfl
  | succ n ih =>
    cases w with
    | nil => simp at hn
    | cons c w =>
      unfold rep
      simp only [run, List.cons_append]
      rw [if_pos (hw c (by simp))]
      exact ih w (by simpa using hn) fun x hx => hw x (by simp [hx])

theorem run_seqs_nil {β : Type} (s : Str) (caps : Caps) (k : Str → Caps → Option β) : run (seqs []) s caps k = k s caps := rfl

theorem run_seqs_cons {β : Type} (r : Rx) (rs : List Rx) (s : Str) (caps : Caps) (k : Str → Caps → Option β) :
    run (seqs (r :: rs)) s caps k = run r s caps fun s' caps' => run (seqs rs) s' caps' k := rfl

theorem take_consumed (w rest : Str) : (w ++ rest).take ((w ++ rest).length - rest.length) = w := by simp

theorem lang_seqs_cons (r : Rx) (rs : List Rx) (w : Str) :
    Lang (seqs (r :: rs)) w ↔ ∃ u v, w = u ++ v ∧ Lang r u ∧ Lang (seqs rs) v := Iff.rfl

theorem lang_chr (c : Char) (w : Str) : Lang (chr c) w ↔ w = [c] := by
  constructor
  · rintro ⟨d, rfl, hd⟩
    simp at hd
    rw [hd]
  · rintro rfl
    exact ⟨c, rfl, by simp⟩

theorem lang_lit (l w : Str) : Lang (lit l) w ↔ w = l := by
  induction l generalizing w with
  | nil => exact Iff.rfl
  | cons c cs ih =>
    unfold lit
    constructor
    · rintro ⟨u, v, rfl, h1, h2⟩
      rw [lang_chr] at h1
      rw [ih] at h2
      simp [h1, h2]
    · rintro rfl
      exact ⟨[c], cs, rfl, (lang_chr c _).2 rfl, (ih _).2 rfl⟩

theorem lang_plus (p : Char → Bool) (w : Str) : Lang (plus p) w ↔ w ≠ [] ∧ ∀ c ∈ w, p c = true := by
  constructor
  · rintro ⟨u, v, rfl, ⟨c, rfl, hc⟩, h2⟩
    refine ⟨by simp, ?_⟩
    intro d hd
    simp only [List.cons_append, List.nil_append, List.mem_cons] at hd
    rcases hd with rfl | hd
    · exact hc
    · exact h2 d hd
  · rintro ⟨h1, h2⟩
    cases w with
    | nil => exact absurd rfl h1
    | cons c cs => exact ⟨[c], cs, rfl, ⟨c, rfl, h2 c (by simp)⟩, fun d hd => h2 d (by simp [hd])⟩

theorem lang_rep (n : Nat) (p : Char → Bool) (w : Str) : Lang (rep n p) w ↔ w.length = n ∧ ∀ c ∈ w, p c = true := by
  induction n generalizing w with
  | zero =>
    simp only [rep, Lang]
    constructor
    · rintro rfl; simp
    · rintro ⟨h, -⟩; exact List.length_eq_zero_iff.1 h
  | succ n ih =>
    unfold rep
    constructor
    · rintro ⟨u, v, rfl, ⟨c, rfl, hc⟩, h2⟩
      obtain ⟨h3, h4⟩ := (ih v).1 h2
      refine ⟨by simp; omega, ?_⟩
      intro d hd
      simp only [List.cons_append, List.nil_append, List.mem_cons] at hd
      rcases hd with rfl | hd
      · exact hc
      · exact h4 d hd
    · rintro ⟨h1, h2⟩
      cases w with
      | nil => simp at h1
      | cons c cs =>
        exact ⟨[c], cs, rfl, ⟨c, rfl, h2 c (by simp)⟩, (ih cs).2 ⟨by simpa using h1, fun d hd => h2 d (by simp [hd])⟩⟩

end Rx

end PwDiff
