import Verif.SpecCommandLine

/-! # The language of command lines: lemmas -/

namespace PwDiff

/-! ## Numbers -/

theorem decimal_eq (n : Nat) (ds : List UInt8) (m : Nat) :
    Cli.decimal n ds = some m ↔ (∀ d ∈ ds, 48 ≤ d ∧ d ≤ 57) ∧ m = ds.foldl (fun n d => 10 * n + (d.toNat - 48)) n := by
  induction ds generalizing n with
  | nil => simp [Cli.decimal, eq_comm]
  | cons d ds ih =>
    unfold Cli.decimal
    by_cases hd : 48 ≤ d ∧ d ≤ 57
    · rw [if_pos hd, ih]
      simp [hd]
    · rw [if_neg hd]
      constructor
      · intro h; cases h
      · intro h; exact absurd (h.1 d List.mem_cons_self) hd

theorem digits_value (negative : Bool) (ds : List UInt8) (n : Nat) :
    (if ds.isEmpty then none
      else match Cli.decimal 0 ds with
        | some n => if n ≤ 255 ∧ (negative = true → n = 0) then some n else none
        | none => none) = some n ↔
    ds ≠ [] ∧ (∀ d ∈ ds, 48 ≤ d ∧ d ≤ 57) ∧ n = numberOf ds ∧ n ≤ 255 ∧ (negative = true → n = 0) := by
  cases ds with
  | nil => simp
  | cons d ds =>
    simp only [List.isEmpty_cons, Bool.false_eq_true, if_false]
    cases hk : Cli.decimal 0 (d :: ds) with
    | none =>
      constructor
      · intro h; cases h
      · rintro ⟨-, h1, h2, -⟩
        have := (decimal_eq 0 (d :: ds) n).2 ⟨h1, h2⟩
        rw [hk] at this
        cases this
    | some m =>
      obtain ⟨k1, k2⟩ := (decimal_eq 0 (d :: ds) m).1 hk
      by_cases hm : m ≤ 255 ∧ (negative = true → m = 0)
      · simp only [if_pos hm]
        constructor
        · intro h
          cases h
          exact ⟨by simp, k1, k2, hm.1, hm.2⟩
        · rintro ⟨-, -, h, -⟩
          rw [h]
          exact congrArg some k2
      · simp only [if_neg hm]
        constructor
        · intro h; cases h
        · rintro ⟨-, -, h2, h3, h4⟩
          rw [show n = m from h2.trans k2.symm] at h3 h4
          exact absurd ⟨h3, h4⟩ hm

theorem u8Value_eq (v : Arg) (n : Nat) : Cli.u8Value v = some n ↔ Writes v n := by
  have key : ∀ (negative : Bool) (sign ds : List UInt8), v = sign ++ ds →
      (sign = [] ∧ negative = false ∨ sign = [43] ∧ negative = false ∨ sign = [45] ∧ negative = true) →
      (sign = [] → ∀ d ds', ds = d :: ds' → d ≠ 43 ∧ d ≠ 45) →
      (Writes v n ↔ ds ≠ [] ∧ (∀ d ∈ ds, 48 ≤ d ∧ d ≤ 57) ∧ n = numberOf ds ∧ n ≤ 255 ∧ (negative = true → n = 0)) := by
    intro negative sign ds hv hs hd
    constructor
    · rintro ⟨sign', ds', h1, h2, h3, h4, h5, h6⟩
      rw [hv] at h1
      -- digits are no signs, so the two ways of taking `v` apart are the same
      have first : ∀ d l, ds' = d :: l → d ≠ 43 ∧ d ≠ 45 := by
        intro d l h
        have := h4 d (by rw [h]; exact List.mem_cons_self)
        constructor <;> (rintro rfl; revert this; decide)
      obtain ⟨d, l, rfl⟩ := List.exists_cons_of_ne_nil h3
      have hf := first d l rfl
      rcases hs with ⟨rfl, rfl⟩ | ⟨rfl, rfl⟩ | ⟨rfl, rfl⟩ <;> rcases h2 with rfl | rfl | ⟨rfl, hn⟩ <;>
        simp only [List.nil_append, List.cons_append, List.cons.injEq] at h1
      · subst h1; exact ⟨h3, h4, h5, h6, by simp⟩
      · exact absurd rfl (hd rfl _ _ h1).1
      · exact absurd rfl (hd rfl _ _ h1).2
      · exact absurd h1.1.symm hf.1
      · obtain rfl := h1.2; exact ⟨h3, h4, h5, h6, by simp⟩
      · exact absurd h1.1 (by decide)
      · exact absurd h1.1.symm hf.2
      · exact absurd h1.1 (by decide)
      · obtain rfl := h1.2; exact ⟨h3, h4, h5, h6, fun _ => hn⟩
    · rintro ⟨h1, h2, h3, h4, h5⟩
      refine ⟨sign, ds, hv, ?_, h1, h2, h3, h4⟩
      rcases hs with ⟨rfl, rfl⟩ | ⟨rfl, rfl⟩ | ⟨rfl, rfl⟩
      · exact .inl rfl
      · exact .inr (.inl rfl)
      · exact .inr (.inr ⟨rfl, h5 rfl⟩)
  unfold Cli.u8Value
  split
  rename_i negative ds heq
  refine (digits_value negative ds n).trans ?_
  split at heq
  · cases heq
    exact (key false [43] _ rfl (.inr (.inl ⟨rfl, rfl⟩)) (by simp)).symm
  · cases heq
    exact (key true [45] _ rfl (.inr (.inr ⟨rfl, rfl⟩)) (by simp)).symm
  · rename_i h1 h2
    cases heq
    refine (key false [] v rfl (.inl ⟨rfl, rfl⟩) ?_).symm
    rintro - d ds' rfl
    exact ⟨fun h => h1 ds' (by rw [h]), fun h => h2 ds' (by rw [h])⟩

theorem Writes.starts {v : Arg} {n : Nat} (h : Writes v n) : ∃ d l, v = d :: l ∧ d ≠ 61 := by
  obtain ⟨sign, ds, rfl, h2, h3, h4, -⟩ := h
  obtain ⟨d, l, rfl⟩ := List.exists_cons_of_ne_nil h3
  have := h4 d List.mem_cons_self
  rcases h2 with rfl | rfl | ⟨rfl, -⟩
  · exact ⟨d, l, rfl, by rintro rfl; revert this; decide⟩
  · exact ⟨43, d :: l, rfl, by decide⟩
  · exact ⟨45, d :: l, rfl, by decide⟩

/-! ## What is said, one after the other -/

/-- What is known after one more thing has been said. -/
def addSaid (cli : Cli) (g : Given) : Said → Option Given
  | .verbose => some { g with verbose := min 255 (g.verbose + 1) }
  | .context n => if g.context = none then some { g with context := some n } else none
  | .reverse => if g.reverse then none else some { g with reverse := true }
  | .path p => if g.paths.length < cli.paths then some { g with paths := g.paths ++ [p] } else none

/-- What is known after several things have been said. -/
def addAll (cli : Cli) : Given → List Said → Option Given
  | g, [] => some g
  | g, i :: is => (addSaid cli g i).bind fun g' => addAll cli g' is

theorem addAll_append (cli : Cli) (g : Given) (is js : List Said) :
    addAll cli g (is ++ js) = (addAll cli g is).bind fun g' => addAll cli g' js := by
  induction is generalizing g with
  | nil => rfl
  | cons i is ih =>
    simp only [List.cons_append, addAll]
    cases addSaid cli g i with
    | none => rfl
    | some g' => exact ih g'

theorem setContext_eq (v : Arg) (g g' : Given) (cli : Cli) :
    Cli.setContext v g = .go g' ↔ ∃ n, Writes v n ∧ addSaid cli g (.context n) = some g' := by
  unfold Cli.setContext addSaid
  cases hc : g.context with
  | some m => cases hv : Cli.u8Value v <;> simp
  | none =>
    cases hv : Cli.u8Value v with
    | none =>
      constructor
      · intro h; cases h
      · rintro ⟨n, h, -⟩
        rw [(u8Value_eq v n).2 h] at hv
        cases hv
    | some n =>
      simp only [Next.go.injEq, if_true, Option.some.injEq]
      constructor
      · intro h; exact ⟨n, (u8Value_eq v n).1 hv, h⟩
      · rintro ⟨m, h, h'⟩
        rw [(u8Value_eq v m).2 h] at hv
        cases hv
        exact h'

theorem setContext_ne_value (v : Arg) (g g' : Given) : Cli.setContext v g ≠ .value g' := by
  unfold Cli.setContext
  split <;> simp

theorem setContext_ne_help (v : Arg) (g : Given) : Cli.setContext v g ≠ .help := by
  unfold Cli.setContext
  split <;> simp

/-! ## Arguments with dashes -/

/-- What the letters in an argument with one dash can mean. -/
inductive ShortSays (cli : Cli) : List UInt8 → List Said → Prop
  | letters {ls js} (h : Letters cli ls js) : ShortSays cli ls js
  | value {ls js} (h : Letters cli ls js) (hc : cli.context = true) {v n} (hv : Writes v n) :
      ShortSays cli (ls ++ 99 :: v) (js ++ [.context n])
  | eq {ls js} (h : Letters cli ls js) (hc : cli.context = true) {v n} (hv : Writes v n) :
      ShortSays cli (ls ++ 99 :: 61 :: v) (js ++ [.context n])

theorem ShortSays.verbose {cli : Cli} {ls js} (h : ShortSays cli ls js) : ShortSays cli (118 :: ls) (.verbose :: js) := by
  cases h with
  | letters h => exact .letters (.verbose h)
  | value h hc hv => exact .value (.verbose h) hc hv
  | eq h hc hv => exact .eq (.verbose h) hc hv

theorem ShortSays.reverse {cli : Cli} (hr : cli.reverse = true) {ls js} (h : ShortSays cli ls js) :
    ShortSays cli (114 :: ls) (.reverse :: js) := by
  cases h with
  | letters h => exact .letters (.reverse hr h)
  | value h hc hv => exact .value (.reverse hr h) hc hv
  | eq h hc hv => exact .eq (.reverse hr h) hc hv

theorem ShortSays.cons_inv {cli : Cli} {l : UInt8} {ls js} (h : ShortSays cli (l :: ls) js) :
    (l = 118 ∧ ∃ js', js = .verbose :: js' ∧ ShortSays cli ls js') ∨
    (l = 114 ∧ cli.reverse = true ∧ ∃ js', js = .reverse :: js' ∧ ShortSays cli ls js') ∨
    (l = 99 ∧ cli.context = true ∧ ∃ v n, (ls = v ∨ ls = 61 :: v) ∧ Writes v n ∧ js = [.context n]) := by
  generalize hk : l :: ls = k at h
  cases h with
  | letters h =>
    cases h with
    | nil => cases hk
    | verbose h => cases hk; exact .inl ⟨rfl, _, rfl, .letters h⟩
    | reverse hr h => cases hk; exact .inr (.inl ⟨rfl, hr, _, rfl, .letters h⟩)
  | value h hc hv =>
    cases h with
    | nil => cases hk; exact .inr (.inr ⟨rfl, hc, _, _, .inl rfl, hv, rfl⟩)
    | verbose h => cases hk; exact .inl ⟨rfl, _, rfl, .value h hc hv⟩
    | reverse hr h => cases hk; exact .inr (.inl ⟨rfl, hr, _, rfl, .value h hc hv⟩)
  | eq h hc hv =>
    cases h with
    | nil => cases hk; exact .inr (.inr ⟨rfl, hc, _, _, .inr rfl, hv, rfl⟩)
    | verbose h => cases hk; exact .inl ⟨rfl, _, rfl, .eq h hc hv⟩
    | reverse hr h => cases hk; exact .inr (.inl ⟨rfl, hr, _, rfl, .eq h hc hv⟩)

theorem short_cases (cli : Cli) (l : UInt8) :
    (l = 118 ∧ cli.short l = some .verbose) ∨ (l = 99 ∧ cli.context = true ∧ cli.short l = some .context) ∨
    (l = 114 ∧ cli.reverse = true ∧ cli.short l = some .reverse) ∨ (l = 104 ∧ cli.short l = some .help) ∨
    (l ≠ 118 ∧ ¬ (l = 99 ∧ cli.context = true) ∧ ¬ (l = 114 ∧ cli.reverse = true) ∧ l ≠ 104 ∧ cli.short l = none) := by
  unfold Cli.short
  by_cases h1 : l = 118
  · exact .inl ⟨h1, by rw [if_pos h1]⟩
  rw [if_neg h1]
  by_cases h2 : l = 99 ∧ cli.context = true
  · exact .inr (.inl ⟨h2.1, h2.2, by rw [if_pos h2]⟩)
  rw [if_neg h2]
  by_cases h3 : l = 114 ∧ cli.reverse = true
  · exact .inr (.inr (.inl ⟨h3.1, h3.2, by rw [if_pos h3]⟩))
  rw [if_neg h3]
  by_cases h4 : l = 104
  · exact .inr (.inr (.inr (.inl ⟨h4, by rw [if_pos h4]⟩)))
  rw [if_neg h4]
  exact .inr (.inr (.inr (.inr ⟨h1, h2, h3, h4, rfl⟩)))

theorem shortArg_verbose {cli : Cli} {l : UInt8} (h : cli.short l = some .verbose) (ls : List UInt8) (g : Given) :
    cli.shortArg (l :: ls) g = cli.shortArg ls { g with verbose := min 255 (g.verbose + 1) } := by
  rw [Cli.shortArg, h]
  rfl

theorem shortArg_reverse {cli : Cli} {l : UInt8} (h : cli.short l = some .reverse) (ls : List UInt8) (g : Given) :
    cli.shortArg (l :: ls) g = if g.reverse then .error else cli.shortArg ls { g with reverse := true } := by
  rw [Cli.shortArg, h]
  simp only [Cli.setFlag]
  cases g.reverse <;> rfl

theorem shortArg_help {cli : Cli} {l : UInt8} (h : cli.short l = some .help) (ls : List UInt8) (g : Given) :
    cli.shortArg (l :: ls) g = .help := by
  rw [Cli.shortArg, h]
  rfl

theorem shortArg_none {cli : Cli} {l : UInt8} (h : cli.short l = none) (ls : List UInt8) (g : Given) :
    cli.shortArg (l :: ls) g = .error := by
  rw [Cli.shortArg, h]

theorem shortArg_context_end {cli : Cli} {l : UInt8} (h : cli.short l = some .context) (g : Given) :
    cli.shortArg [l] g = .value g := by
  rw [Cli.shortArg, h]
  rfl

theorem shortArg_context_eq {cli : Cli} {l : UInt8} (h : cli.short l = some .context) (v : List UInt8) (g : Given) :
    cli.shortArg (l :: 61 :: v) g = Cli.setContext v g := by
  rw [Cli.shortArg, h]
  rfl

theorem shortArg_context {cli : Cli} {l : UInt8} (h : cli.short l = some .context) {d : UInt8} (hd : d ≠ 61) (v : List UInt8) (g : Given) :
    cli.shortArg (l :: d :: v) g = Cli.setContext (d :: v) g := by
  rw [Cli.shortArg, h]
  simp only [Cli.shortValue]
  split
  · rename_i heq; cases heq
  · rename_i heq; cases heq; exact absurd rfl hd
  · rfl

theorem Writes.not_eq {v : Arg} {n : Nat} (h : Writes (61 :: v) n) : False := by
  obtain ⟨d, l, h1, h2⟩ := h.starts
  cases h1
  exact h2 rfl

theorem Writes.not_nil {n : Nat} (h : Writes [] n) : False := by
  obtain ⟨d, l, h1, h2⟩ := h.starts
  cases h1

theorem shortArg_go (cli : Cli) (ls : List UInt8) (g g' : Given) :
    cli.shortArg ls g = .go g' ↔ ∃ js, ShortSays cli ls js ∧ addAll cli g js = some g' := by
  induction ls generalizing g with
  | nil =>
    constructor
    · intro h
      cases h
      exact ⟨[], .letters .nil, rfl⟩
    · rintro ⟨js, h, h'⟩
      generalize hk : ([] : List UInt8) = k at h
      cases h with
      | letters h =>
        cases h with
        | nil => cases h'; rfl
        | verbose => cases hk
        | reverse => cases hk
      | value => simp at hk
      | eq => simp at hk
  | cons l ls ih =>
    rcases short_cases cli l with ⟨rfl, h⟩ | ⟨rfl, hc, h⟩ | ⟨rfl, hr, h⟩ | ⟨rfl, h⟩ | ⟨h1, h2, h3, h4, h⟩
    · rw [shortArg_verbose h, ih]
      constructor
      · rintro ⟨js, k1, k2⟩
        exact ⟨_, k1.verbose, k2⟩
      · rintro ⟨js, k1, k2⟩
        rcases k1.cons_inv with ⟨-, js', rfl, k3⟩ | ⟨k, -⟩ | ⟨k, -⟩
        · exact ⟨js', k3, k2⟩
        · exact absurd k (by decide)
        · exact absurd k (by decide)
    · have key : cli.shortArg (99 :: ls) g = .go g' ↔ ∃ v n, (ls = v ∨ ls = 61 :: v) ∧ Writes v n ∧ addSaid cli g (.context n) = some g' := by
        cases ls with
        | nil =>
          rw [shortArg_context_end h]
          constructor
          · intro h; cases h
          · rintro ⟨v, n, h | h, k, -⟩
            · subst h; exact k.not_nil.elim
            · cases h
        | cons d v =>
          by_cases hd : d = 61
          · subst hd
            rw [shortArg_context_eq h, setContext_eq v g g' cli]
            constructor
            · rintro ⟨n, k1, k2⟩
              exact ⟨v, n, .inr rfl, k1, k2⟩
            · rintro ⟨v', n, k | k, k1, k2⟩
              · subst k; exact k1.not_eq.elim
              · cases k; exact ⟨n, k1, k2⟩
          · rw [shortArg_context h hd, setContext_eq (d :: v) g g' cli]
            constructor
            · rintro ⟨n, k1, k2⟩
              exact ⟨_, n, .inl rfl, k1, k2⟩
            · rintro ⟨v', n, k | k, k1, k2⟩
              · subst k; exact ⟨n, k1, k2⟩
              · cases k; exact absurd rfl hd
      rw [key]
      constructor
      · rintro ⟨v, n, k | k, k1, k2⟩
        · subst k
          exact ⟨_, .value (ls := []) .nil hc k1, by simp [addAll, k2]⟩
        · subst k
          exact ⟨_, .eq (ls := []) .nil hc k1, by simp [addAll, k2]⟩
      · rintro ⟨js, k1, k2⟩
        rcases k1.cons_inv with ⟨k, -⟩ | ⟨k, -⟩ | ⟨-, -, v, n, k3, k4, rfl⟩
        · exact absurd k (by decide)
        · exact absurd k (by decide)
        · refine ⟨v, n, k3, k4, ?_⟩
          simpa [addAll] using k2
    · rw [shortArg_reverse h]
      cases hg : g.reverse with
      | true =>
        simp only [if_true]
        constructor
        · intro h; cases h
        · rintro ⟨js, k1, k2⟩
          rcases k1.cons_inv with ⟨k, -⟩ | ⟨-, -, js', rfl, k3⟩ | ⟨k, -⟩
          · exact absurd k (by decide)
          · simp [addAll, addSaid, hg] at k2
          · exact absurd k (by decide)
      | false =>
        simp only [Bool.false_eq_true, if_false]
        rw [ih]
        constructor
        · rintro ⟨js, k1, k2⟩
          exact ⟨_, k1.reverse hr, by simpa [addAll, addSaid, hg] using k2⟩
        · rintro ⟨js, k1, k2⟩
          rcases k1.cons_inv with ⟨k, -⟩ | ⟨-, -, js', rfl, k3⟩ | ⟨k, -⟩
          · exact absurd k (by decide)
          · exact ⟨js', k3, by simpa [addAll, addSaid, hg] using k2⟩
          · exact absurd k (by decide)
    · rw [shortArg_help h]
      constructor
      · intro h; cases h
      · rintro ⟨js, k1, -⟩
        rcases k1.cons_inv with ⟨k, -⟩ | ⟨k, -⟩ | ⟨k, -⟩ <;> exact absurd k (by decide)
    · rw [shortArg_none h]
      constructor
      · intro h; cases h
      · rintro ⟨js, k1, -⟩
        rcases k1.cons_inv with ⟨k, -⟩ | ⟨k, hr, -⟩ | ⟨k, hc, -⟩
        · exact absurd k h1
        · exact absurd ⟨k, hr⟩ h3
        · exact absurd ⟨k, hc⟩ h2

theorem shortArg_value (cli : Cli) (ls : List UInt8) (g g' : Given) :
    cli.shortArg ls g = .value g' ↔
      ∃ fs js, ls = fs ++ [99] ∧ cli.context = true ∧ Letters cli fs js ∧ addAll cli g js = some g' := by
  induction ls generalizing g with
  | nil =>
    constructor
    · intro h; cases h
    · rintro ⟨fs, js, h, -⟩; simp at h
  | cons l ls ih =>
    have inv : ∀ {fs js}, l :: ls = fs ++ [99] → Letters cli fs js → addAll cli g js = some g' →
        (l = 99 ∧ ls = [] ∧ g' = g) ∨
        (l = 118 ∧ ∃ fs' js', ls = fs' ++ [99] ∧ Letters cli fs' js' ∧
          addAll cli { g with verbose := min 255 (g.verbose + 1) } js' = some g') ∨
        (l = 114 ∧ cli.reverse = true ∧ g.reverse = false ∧ ∃ fs' js', ls = fs' ++ [99] ∧ Letters cli fs' js' ∧
          addAll cli { g with reverse := true } js' = some g') := by
      intro fs js h1 h2 h3
      cases h2 with
      | nil => cases h1; cases h3; exact .inl ⟨rfl, rfl, rfl⟩
      | verbose h => cases h1; exact .inr (.inl ⟨rfl, _, _, rfl, h, h3⟩)
      | reverse hr h =>
        cases h1
        cases hg : g.reverse with
        | true => simp [addAll, addSaid, hg] at h3
        | false => exact .inr (.inr ⟨rfl, hr, rfl, _, _, rfl, h, by simpa [addAll, addSaid, hg] using h3⟩)
    rcases short_cases cli l with ⟨rfl, h⟩ | ⟨rfl, hc, h⟩ | ⟨rfl, hr, h⟩ | ⟨rfl, h⟩ | ⟨h1, h2, h3, h4, h⟩
    · rw [shortArg_verbose h, ih]
      constructor
      · rintro ⟨fs, js, rfl, hc, k2, k3⟩
        exact ⟨118 :: fs, _, rfl, hc, .verbose k2, k3⟩
      · rintro ⟨fs, js, k1, hc, k2, k3⟩
        rcases inv k1 k2 k3 with ⟨k, -⟩ | ⟨-, fs', js', m1, m2, m3⟩ | ⟨k, -⟩
        · exact absurd k (by decide)
        · exact ⟨fs', js', m1, hc, m2, m3⟩
        · exact absurd k (by decide)
    · cases ls with
      | nil =>
        rw [shortArg_context_end h]
        constructor
        · intro h
          cases h
          exact ⟨[], [], rfl, hc, .nil, rfl⟩
        · rintro ⟨fs, js, k1, -, k2, k3⟩
          rcases inv k1 k2 k3 with ⟨-, -, rfl⟩ | ⟨k, -⟩ | ⟨k, -⟩
          · rfl
          · exact absurd k (by decide)
          · exact absurd k (by decide)
      | cons d v =>
        have : cli.shortArg (99 :: d :: v) g ≠ .value g' := by
          by_cases hd : d = 61
          · subst hd
            rw [shortArg_context_eq h]
            exact setContext_ne_value _ _ _
          · rw [shortArg_context h hd]
            exact setContext_ne_value _ _ _
        constructor
        · intro h; exact absurd h this
        · rintro ⟨fs, js, k1, -, k2, k3⟩
          rcases inv k1 k2 k3 with ⟨-, k, -⟩ | ⟨k, -⟩ | ⟨k, -⟩
          · cases k
          · exact absurd k (by decide)
          · exact absurd k (by decide)
    · rw [shortArg_reverse h]
      cases hg : g.reverse with
      | true =>
        simp only [if_true]
        constructor
        · intro h; cases h
        · rintro ⟨fs, js, k1, -, k2, k3⟩
          rcases inv k1 k2 k3 with ⟨k, -⟩ | ⟨k, -⟩ | ⟨-, -, k, -⟩
          · exact absurd k (by decide)
          · exact absurd k (by decide)
          · rw [hg] at k; cases k
      | false =>
        simp only [Bool.false_eq_true, if_false]
        rw [ih]
        constructor
        · rintro ⟨fs, js, rfl, hc, k2, k3⟩
          exact ⟨114 :: fs, _, rfl, hc, .reverse hr k2, by simpa [addAll, addSaid, hg] using k3⟩
        · rintro ⟨fs, js, k1, hc, k2, k3⟩
          rcases inv k1 k2 k3 with ⟨k, -⟩ | ⟨k, -⟩ | ⟨-, -, -, fs', js', m1, m2, m3⟩
          · exact absurd k (by decide)
          · exact absurd k (by decide)
          · exact ⟨fs', js', m1, hc, m2, m3⟩
    · rw [shortArg_help h]
      constructor
      · intro h; cases h
      · rintro ⟨fs, js, k1, -, k2, k3⟩
        rcases inv k1 k2 k3 with ⟨k, -⟩ | ⟨k, -⟩ | ⟨k, -⟩ <;> exact absurd k (by decide)
    · rw [shortArg_none h]
      constructor
      · intro h; cases h
      · rintro ⟨fs, js, k1, hc, k2, k3⟩
        rcases inv k1 k2 k3 with ⟨k, -⟩ | ⟨k, -⟩ | ⟨k, hr, -⟩
        · exact absurd ⟨k, hc⟩ h2
        · exact absurd k h1
        · exact absurd ⟨k, hr⟩ h3

/-- What an argument with two dashes can mean. -/
inductive LongSays (cli : Cli) : Arg → Said → Prop
  | verbose : LongSays cli Cli.verboseName .verbose
  | reverse (hr : cli.reverse = true) : LongSays cli Cli.reverseName .reverse
  | context (hc : cli.context = true) {v n} (hv : Writes v n) : LongSays cli (Cli.contextName ++ 61 :: v) (.context n)

theorem takeWhile_eq_self {l : List UInt8} (h : ∀ x ∈ l, x ≠ 61) : l.takeWhile (· ≠ 61) = l ∧ l.dropWhile (· ≠ 61) = [] := by
  induction l with
  | nil => exact ⟨rfl, rfl⟩
  | cons x l ih =>
    have hx := h x List.mem_cons_self
    obtain ⟨i1, i2⟩ := ih fun y hy => h y (.tail _ hy)
    constructor
    · rw [List.takeWhile_cons_of_pos (by simpa using hx), i1]
    · rw [List.dropWhile_cons_of_pos (by simpa using hx), i2]

theorem takeWhile_stop {l : List UInt8} (h : ∀ x ∈ l, x ≠ 61) (v : List UInt8) :
    (l ++ 61 :: v).takeWhile (· ≠ 61) = l ∧ (l ++ 61 :: v).dropWhile (· ≠ 61) = 61 :: v := by
  induction l with
  | nil => exact ⟨rfl, rfl⟩
  | cons x l ih =>
    have hx := h x List.mem_cons_self
    obtain ⟨i1, i2⟩ := ih fun y hy => h y (.tail _ hy)
    constructor
    · rw [List.cons_append, List.takeWhile_cons_of_pos (by simpa using hx), i1]
    · rw [List.cons_append, List.dropWhile_cons_of_pos (by simpa using hx), i2]

/-- The part before the first `=`, and whether there is one. -/
theorem split_eq (body : Arg) : (∀ x ∈ body, x ≠ 61) ∨ ∃ name v, body = name ++ 61 :: v ∧ ∀ x ∈ name, x ≠ 61 := by
  induction body with
  | nil => exact .inl (by simp)
  | cons x l ih =>
    by_cases hx : x = 61
    · exact .inr ⟨[], l, by rw [hx]; rfl, by simp⟩
    · rcases ih with h | ⟨name, v, rfl, h⟩
      · exact .inl (by simpa [hx] using h)
      · exact .inr ⟨x :: name, v, rfl, by simpa [hx] using h⟩

theorem long_cases (cli : Cli) (name : Arg) :
    (name = Cli.verboseName ∧ cli.long name = some .verbose) ∨
    (name = Cli.contextName ∧ cli.context = true ∧ cli.long name = some .context) ∨
    (name = Cli.reverseName ∧ cli.reverse = true ∧ cli.long name = some .reverse) ∨
    (name = Cli.helpName ∧ cli.long name = some .help) ∨
    (name ≠ Cli.verboseName ∧ ¬ (name = Cli.contextName ∧ cli.context = true) ∧ ¬ (name = Cli.reverseName ∧ cli.reverse = true) ∧
      name ≠ Cli.helpName ∧ cli.long name = none) := by
  unfold Cli.long
  by_cases h1 : name = Cli.verboseName
  · exact .inl ⟨h1, by rw [if_pos h1]⟩
  rw [if_neg h1]
  by_cases h2 : name = Cli.contextName ∧ cli.context = true
  · exact .inr (.inl ⟨h2.1, h2.2, by rw [if_pos h2]⟩)
  rw [if_neg h2]
  by_cases h3 : name = Cli.reverseName ∧ cli.reverse = true
  · exact .inr (.inr (.inl ⟨h3.1, h3.2, by rw [if_pos h3]⟩))
  rw [if_neg h3]
  by_cases h4 : name = Cli.helpName
  · exact .inr (.inr (.inr (.inl ⟨h4, by rw [if_pos h4]⟩)))
  rw [if_neg h4]
  exact .inr (.inr (.inr (.inr ⟨h1, h2, h3, h4, rfl⟩)))

theorem names_plain : (∀ x ∈ Cli.verboseName, x ≠ 61) ∧ (∀ x ∈ Cli.contextName, x ≠ 61) ∧ (∀ x ∈ Cli.reverseName, x ≠ 61) ∧
    (∀ x ∈ Cli.helpName, x ≠ 61) := by decide +kernel

theorem names_differ : Cli.verboseName ≠ Cli.contextName ∧ Cli.verboseName ≠ Cli.reverseName ∧ Cli.verboseName ≠ Cli.helpName ∧
    Cli.contextName ≠ Cli.reverseName ∧ Cli.contextName ≠ Cli.helpName ∧ Cli.reverseName ≠ Cli.helpName := by decide +kernel

theorem LongSays.plain {cli : Cli} {body : Arg} {i : Said} (h : LongSays cli body i) (hp : ∀ x ∈ body, x ≠ 61) :
    (body = Cli.verboseName ∧ i = .verbose) ∨ (body = Cli.reverseName ∧ cli.reverse = true ∧ i = .reverse) := by
  cases h with
  | verbose => exact .inl ⟨rfl, rfl⟩
  | reverse hr => exact .inr ⟨rfl, hr, rfl⟩
  | context => exact absurd rfl (hp 61 (by simp))

theorem append_eq_inj {a b v w : List UInt8} (ha : ∀ x ∈ a, x ≠ 61) (hb : ∀ x ∈ b, x ≠ 61) (h : a ++ 61 :: v = b ++ 61 :: w) :
    a = b ∧ v = w := by
  have h1 := (takeWhile_stop ha v).1
  have h2 := (takeWhile_stop ha v).2
  rw [h, (takeWhile_stop hb w).1] at h1
  rw [h, (takeWhile_stop hb w).2] at h2
  cases h2
  exact ⟨h1.symm, rfl⟩

theorem LongSays.stop {cli : Cli} {name v : Arg} {i : Said} (h : LongSays cli (name ++ 61 :: v) i) (hp : ∀ x ∈ name, x ≠ 61) :
    name = Cli.contextName ∧ cli.context = true ∧ ∃ n, Writes v n ∧ i = .context n := by
  generalize hk : name ++ 61 :: v = k at h
  cases h with
  | verbose => exact absurd rfl (names_plain.1 61 (by rw [← hk]; simp))
  | reverse => exact absurd rfl (names_plain.2.2.1 61 (by rw [← hk]; simp))
  | context hc hv =>
    obtain ⟨rfl, rfl⟩ := append_eq_inj hp names_plain.2.1 hk
    exact ⟨rfl, hc, _, hv, rfl⟩

theorem longArg_plain (cli : Cli) {body : Arg} (hp : ∀ x ∈ body, x ≠ 61) (g : Given) :
    cli.longArg body g = match cli.long body with
      | none => .error
      | some f => Cli.setFlag f g := by
  unfold Cli.longArg
  rw [(takeWhile_eq_self hp).1, (takeWhile_eq_self hp).2]
  cases cli.long body <;> rfl

theorem longArg_stop (cli : Cli) {name : Arg} (hp : ∀ x ∈ name, x ≠ 61) (v : Arg) (g : Given) :
    cli.longArg (name ++ 61 :: v) g = match cli.long name with
      | some .context => Cli.setContext v g
      | _ => .error := by
  unfold Cli.longArg
  rw [(takeWhile_stop hp v).1, (takeWhile_stop hp v).2]
  cases cli.long name with
  | none => rfl
  | some f => cases f <;> rfl

theorem longArg_go (cli : Cli) (body : Arg) (g g' : Given) :
    cli.longArg body g = .go g' ↔ ∃ i, LongSays cli body i ∧ addSaid cli g i = some g' := by
  obtain ⟨d1, d2, d3, d4, d5, d6⟩ := names_differ
  rcases split_eq body with hp | ⟨name, v, rfl, hp⟩
  · rw [longArg_plain cli hp]
    rcases long_cases cli body with ⟨rfl, h⟩ | ⟨rfl, hc, h⟩ | ⟨rfl, hr, h⟩ | ⟨rfl, h⟩ | ⟨h1, h2, h3, h4, h⟩ <;> rw [h] <;> simp only [Cli.setFlag]
    · constructor
      · intro k
        exact ⟨.verbose, .verbose, by cases k; rfl⟩
      · rintro ⟨i, k1, k2⟩
        rcases k1.plain hp with ⟨-, rfl⟩ | ⟨k, -⟩
        · cases k2; rfl
        · exact absurd k d2
    · constructor
      · intro k; cases k
      · rintro ⟨i, k1, k2⟩
        rcases k1.plain hp with ⟨k, -⟩ | ⟨k, -⟩
        · exact absurd k.symm d1
        · exact absurd k d4
    · constructor
      · intro k
        refine ⟨.reverse, .reverse hr, ?_⟩
        unfold addSaid
        cases hg : g.reverse with
        | true => rw [hg] at k; cases k
        | false => rw [hg] at k; cases k; simp
      · rintro ⟨i, k1, k2⟩
        rcases k1.plain hp with ⟨k, -⟩ | ⟨-, -, rfl⟩
        · exact absurd k.symm d2
        · unfold addSaid at k2
          cases hg : g.reverse with
          | true => rw [hg] at k2; cases k2
          | false => rw [hg] at k2; cases k2; simp
    · constructor
      · intro k; cases k
      · rintro ⟨i, k1, k2⟩
        rcases k1.plain hp with ⟨k, -⟩ | ⟨k, -⟩
        · exact absurd k.symm d3
        · exact absurd k.symm d6
    · constructor
      · intro k; cases k
      · rintro ⟨i, k1, k2⟩
        rcases k1.plain hp with ⟨k, -⟩ | ⟨k, hr, -⟩
        · exact absurd k h1
        · exact absurd ⟨k, hr⟩ h3
  · rw [longArg_stop cli hp]
    rcases long_cases cli name with ⟨rfl, h⟩ | ⟨rfl, hc, h⟩ | ⟨rfl, hr, h⟩ | ⟨rfl, h⟩ | ⟨h1, h2, h3, h4, h⟩ <;> rw [h] <;> simp only
    · constructor
      · intro k; cases k
      · rintro ⟨i, k1, -⟩; exact absurd (k1.stop hp).1 d1
    · rw [setContext_eq v g g' cli]
      constructor
      · rintro ⟨n, k1, k2⟩
        exact ⟨_, .context hc k1, k2⟩
      · rintro ⟨i, k1, k2⟩
        obtain ⟨-, -, n, k3, rfl⟩ := k1.stop hp
        exact ⟨n, k3, k2⟩
    · constructor
      · intro k; cases k
      · rintro ⟨i, k1, -⟩; exact absurd (k1.stop hp).1.symm d4
    · constructor
      · intro k; cases k
      · rintro ⟨i, k1, -⟩; exact absurd (k1.stop hp).1.symm d5
    · constructor
      · intro k; cases k
      · rintro ⟨i, k1, -⟩
        obtain ⟨k3, k4, -⟩ := k1.stop hp
        exact absurd ⟨k3, k4⟩ h2

theorem longArg_value (cli : Cli) (body : Arg) (g g' : Given) :
    cli.longArg body g = .value g' ↔ body = Cli.contextName ∧ cli.context = true ∧ g' = g := by
  obtain ⟨d1, d2, d3, d4, d5, d6⟩ := names_differ
  rcases split_eq body with hp | ⟨name, v, rfl, hp⟩
  · rw [longArg_plain cli hp]
    rcases long_cases cli body with ⟨rfl, h⟩ | ⟨rfl, hc, h⟩ | ⟨rfl, hr, h⟩ | ⟨rfl, h⟩ | ⟨h1, h2, h3, h4, h⟩ <;> rw [h] <;> simp only [Cli.setFlag]
    · constructor
      · intro k; cases k
      · intro k; exact absurd k.1 d1
    · constructor
      · intro k; cases k; exact ⟨trivial, hc, rfl⟩
      · intro k; rw [k.2.2]
    · constructor
      · intro k; cases hg : g.reverse <;> (rw [hg] at k; cases k)
      · intro k; exact absurd k.1.symm d4
    · constructor
      · intro k; cases k
      · intro k; exact absurd k.1.symm d5
    · constructor
      · intro k; cases k
      · intro k; exact absurd ⟨k.1, k.2.1⟩ h2
  · have : ∀ x, cli.longArg (name ++ 61 :: v) g ≠ .value x := by
      intro x
      rw [longArg_stop cli hp]
      split
      · exact setContext_ne_value _ _ _
      · simp
    constructor
    · intro k; exact absurd k (this _)
    · rintro ⟨k, -⟩
      exact absurd rfl (names_plain.2.1 61 (by rw [← k]; simp))

theorem pathArg_go (cli : Cli) (p : Arg) (g g' : Given) :
    cli.pathArg p g = .go g' ↔ p ≠ [] ∧ addSaid cli g (.path p) = some g' := by
  unfold Cli.pathArg addSaid
  cases p with
  | nil => simp
  | cons x p =>
    by_cases h : cli.paths ≤ g.paths.length
    · rw [if_pos (.inr h)]
      simp only [if_neg (Nat.not_lt.2 h)]
      simp
    · rw [if_neg (by simpa using h)]
      simp only [if_pos (Nat.not_le.1 h)]
      simp

theorem pathArg_go_or (cli : Cli) (p : Arg) (g : Given) : (∃ g', cli.pathArg p g = .go g') ∨ cli.pathArg p g = .error := by
  unfold Cli.pathArg
  split
  · exact .inr rfl
  · exact .inl ⟨_, rfl⟩

theorem arg_long (cli : Cli) (awaited : Bool) (body : Arg) (g : Given) :
    cli.arg awaited (45 :: 45 :: body) g = if awaited then .error else cli.longArg body g := rfl

theorem arg_short (cli : Cli) (awaited : Bool) {l : UInt8} (hl : l ≠ 45) (ls : Arg) (g : Given) :
    cli.arg awaited (45 :: l :: ls) g = if awaited then .error else cli.shortArg (l :: ls) g := by
  unfold Cli.arg
  split
  · rename_i heq; cases heq; exact absurd rfl hl
  · rename_i heq; cases heq; rfl
  · rename_i h1 h2; exact absurd rfl (h2 l ls)

theorem arg_other (cli : Cli) (awaited : Bool) {a : Arg} (ha : ¬ LooksLikeOption a) (g : Given) :
    cli.arg awaited a g = if awaited then Cli.setContext a g else cli.pathArg a g := by
  unfold Cli.arg
  split
  · exact absurd ⟨_, _, rfl⟩ ha
  · exact absurd ⟨_, _, rfl⟩ ha
  · rfl

theorem arg_cases (a : Arg) : (∃ body, a = 45 :: 45 :: body) ∨ (∃ l ls, l ≠ 45 ∧ a = 45 :: l :: ls) ∨ ¬ LooksLikeOption a := by
  by_cases h : LooksLikeOption a
  · obtain ⟨b, rest, rfl⟩ := h
    by_cases hb : b = 45
    · exact .inl ⟨rest, by rw [hb]⟩
    · exact .inr (.inl ⟨b, rest, hb, rfl⟩)
  · exact .inr (.inr h)

/-! ## Command lines -/

/-- The first argument of a command line that says something. -/
theorem Says.cons_inv {cli : Cli} {a : Arg} {as : List Arg} {is : List Said} (h : Says cli (a :: as) is) :
    (a = [45, 45] ∧ (∀ p ∈ as, p ≠ []) ∧ is = as.map .path) ∨
    (a ≠ [] ∧ ¬ LooksLikeOption a ∧ ∃ is', is = .path a :: is' ∧ Says cli as is') ∨
    (∃ body i is', a = 45 :: 45 :: body ∧ LongSays cli body i ∧ is = i :: is' ∧ Says cli as is') ∨
    (a = 45 :: 45 :: Cli.contextName ∧ cli.context = true ∧ ∃ v as' n is', as = v :: as' ∧ ¬ LooksLikeOption v ∧ Writes v n ∧
      is = .context n :: is' ∧ Says cli as' is') ∨
    (∃ ls js is', ls ≠ [] ∧ a = 45 :: ls ∧ ShortSays cli ls js ∧ is = js ++ is' ∧ Says cli as is') ∨
    (∃ fs js, a = 45 :: (fs ++ [99]) ∧ cli.context = true ∧ Letters cli fs js ∧ ∃ v as' n is', as = v :: as' ∧ ¬ LooksLikeOption v ∧
      Writes v n ∧ is = js ++ .context n :: is' ∧ Says cli as' is') := by
  generalize hk : a :: as = k at h
  cases h with
  | nil => cases hk
  | rest ps h => cases hk; exact .inl ⟨rfl, h, rfl⟩
  | path p h0 h1 h => cases hk; exact .inr (.inl ⟨h0, h1, _, rfl, h⟩)
  | verbose h => cases hk; exact .inr (.inr (.inl ⟨_, _, _, rfl, .verbose, rfl, h⟩))
  | reverse hr h => cases hk; exact .inr (.inr (.inl ⟨_, _, _, rfl, .reverse hr, rfl, h⟩))
  | contextEq hc hv h => cases hk; exact .inr (.inr (.inl ⟨_, _, _, rfl, .context hc hv, rfl, h⟩))
  | context hc hv hl h => cases hk; exact .inr (.inr (.inr (.inl ⟨rfl, hc, _, _, _, _, rfl, hl, hv, rfl, h⟩)))
  | letters h0 hl h => cases hk; exact .inr (.inr (.inr (.inr (.inl ⟨_, _, _, h0, rfl, .letters hl, rfl, h⟩))))
  | lettersValue hl hc hv h =>
    cases hk
    exact .inr (.inr (.inr (.inr (.inl ⟨_, _, _, by simp, rfl, .value hl hc hv, by simp, h⟩))))
  | lettersEq hl hc hv h =>
    cases hk
    exact .inr (.inr (.inr (.inr (.inl ⟨_, _, _, by simp, rfl, .eq hl hc hv, by simp, h⟩))))
  | lettersNext hl hc hv hn h => cases hk; exact .inr (.inr (.inr (.inr (.inr ⟨_, _, rfl, hc, hl, _, _, _, _, rfl, hn, hv, rfl, h⟩))))

theorem Says.long {cli : Cli} {body : Arg} {i : Said} (hl : LongSays cli body i) {as is} (h : Says cli as is) :
    Says cli ((45 :: 45 :: body) :: as) (i :: is) := by
  cases hl with
  | verbose => exact .verbose h
  | reverse hr => exact .reverse hr h
  | context hc hv => exact .contextEq hc hv h

theorem Says.short {cli : Cli} {ls js} (h0 : ls ≠ []) (hl : ShortSays cli ls js) {as is} (h : Says cli as is) :
    Says cli ((45 :: ls) :: as) (js ++ is) := by
  cases hl with
  | letters hl => exact .letters h0 hl h
  | value hl hc hv => simpa using Says.lettersValue hl hc hv h
  | eq hl hc hv => simpa using Says.lettersEq hl hc hv h

theorem ShortSays.first {cli : Cli} {l : UInt8} {ls js} (h : ShortSays cli (l :: ls) js) : l ≠ 45 := by
  rcases h.cons_inv with ⟨rfl, -⟩ | ⟨rfl, -⟩ | ⟨rfl, -⟩ <;> decide

theorem Letters.first {cli : Cli} {fs js} (h : Letters cli fs js) : ∃ l ls, fs ++ [99] = l :: ls ∧ l ≠ 45 := by
  cases h with
  | nil => exact ⟨99, [], rfl, by decide⟩
  | verbose h => exact ⟨118, _, rfl, by decide⟩
  | reverse hr h => exact ⟨114, _, rfl, by decide⟩

theorem parseRest_run (cli : Cli) (ps : List Arg) (g g' : Given) :
    cli.parseRest ps g = .run g' ↔
      (∀ p ∈ ps, p ≠ []) ∧ addAll cli g (ps.map .path) = some g' ∧ g'.paths.length = cli.paths := by
  induction ps generalizing g with
  | nil =>
    unfold Cli.parseRest Cli.finish
    simp only [List.map_nil, addAll, Option.some.injEq]
    constructor
    · intro h
      split at h
      · rename_i hk; cases h; exact ⟨by simp, rfl, hk⟩
      · cases h
    · rintro ⟨-, rfl, h⟩
      rw [if_pos h]
  | cons p ps ih =>
    unfold Cli.parseRest
    rcases pathArg_go_or cli p g with ⟨g1, h⟩ | h
    · rw [h]
      simp only
      obtain ⟨h1, h2⟩ := (pathArg_go cli p g g1).1 h
      rw [ih]
      simp [addAll, h1, h2]
    · rw [h]
      simp only
      constructor
      · intro k; cases k
      · rintro ⟨k1, k2, -⟩
        simp only [List.map_cons, addAll] at k2
        cases hk : addSaid cli g (.path p) with
        | none => rw [hk] at k2; cases k2
        | some g1 =>
          rw [(pathArg_go cli p g g1).2 ⟨k1 p List.mem_cons_self, hk⟩] at h
          cases h

theorem longArg_nil (cli : Cli) (g : Given) : cli.longArg [] g = .error := by
  rw [longArg_plain cli (by simp)]
  rcases long_cases cli [] with ⟨h, -⟩ | ⟨h, -⟩ | ⟨h, -⟩ | ⟨h, -⟩ | ⟨-, -, -, -, h⟩
  · exact absurd h (by decide +kernel)
  · exact absurd h (by decide +kernel)
  · exact absurd h (by decide +kernel)
  · exact absurd h (by decide +kernel)
  · rw [h]

theorem LongSays.not_nil {cli : Cli} {i : Said} (h : LongSays cli [] i) : False := by
  rcases h.plain (by simp) with ⟨h, -⟩ | ⟨h, -⟩ <;> exact absurd h (by decide +kernel)

/-- The arguments from any state on, and the same when the first one has to be the value of `context`. -/
theorem parse_run (cli : Cli) (as : List Arg) (g g' : Given) :
    (cli.parse false as g = .run g' ↔ ∃ is, Says cli as is ∧ addAll cli g is = some g' ∧ g'.paths.length = cli.paths) ∧
    (cli.parse true as g = .run g' ↔ ∃ v as' n is, as = v :: as' ∧ ¬ LooksLikeOption v ∧ Writes v n ∧ Says cli as' is ∧
      addAll cli g (.context n :: is) = some g' ∧ g'.paths.length = cli.paths) := by
  induction as generalizing g with
  | nil =>
    constructor
    · unfold Cli.parse Cli.finish
      simp only [Bool.false_eq_true, if_false]
      constructor
      · intro h
        split at h
        · rename_i hk; cases h; exact ⟨[], .nil, rfl, hk⟩
        · cases h
      · rintro ⟨is, h1, h2, h3⟩
        cases h1
        cases h2
        rw [if_pos h3]
    · unfold Cli.parse
      simp
  | cons a as ih =>
    constructor
    · by_cases ha : a = [45, 45]
      · subst ha
        unfold Cli.parse
        simp only [if_true, Bool.false_eq_true, if_false]
        rw [parseRest_run]
        constructor
        · rintro ⟨h1, h2, h3⟩
          exact ⟨_, .rest as h1, h2, h3⟩
        · rintro ⟨is, h1, h2, h3⟩
          rcases h1.cons_inv with ⟨-, k1, rfl⟩ | ⟨-, k, -⟩ | ⟨body, i, is', k, k1, -⟩ | ⟨k, -⟩ | ⟨ls, js, is', -, k, k1, -⟩ | ⟨fs, js, k, -, k1, -⟩
          · exact ⟨k1, h2, h3⟩
          · exact absurd ⟨45, [], rfl⟩ k
          · cases k
            exact k1.not_nil.elim
          · exact absurd k (by decide +kernel)
          · cases k
            exact absurd rfl k1.first
          · obtain ⟨l, ls, e, hl⟩ := k1.first
            rw [e] at k
            cases k
            exact absurd rfl hl
      · have step : cli.parse false (a :: as) g = match cli.arg false a g with
            | .go g' => cli.parse false as g'
            | .value g' => cli.parse true as g'
            | .help => .help
            | .error => .error := by
          rw [Cli.parse, if_neg ha]
          cases cli.arg false a g <;> rfl
        -- an argument that says something by itself, one that is followed by a value
        have main : (cli.parse false (a :: as) g = .run g') ↔
            (∃ g1, cli.arg false a g = .go g1 ∧ cli.parse false as g1 = .run g') ∨
            (∃ g1, cli.arg false a g = .value g1 ∧ cli.parse true as g1 = .run g') := by
          rw [step]
          cases cli.arg false a g with
          | go g1 => simp
          | value g1 => simp
          | help => simp
          | error => simp
        rw [main]
        have use : ∀ js, (∃ g1, addAll cli g js = some g1 ∧ cli.parse false as g1 = .run g') ↔
            ∃ is, Says cli as is ∧ addAll cli g (js ++ is) = some g' ∧ g'.paths.length = cli.paths := by
          intro js
          constructor
          · rintro ⟨g1, h1, h2⟩
            obtain ⟨is, k1, k2, k3⟩ := (ih g1).1.1 h2
            exact ⟨is, k1, by rw [addAll_append, h1]; exact k2, k3⟩
          · rintro ⟨is, k1, k2, k3⟩
            rw [addAll_append] at k2
            cases h1 : addAll cli g js with
            | none => rw [h1] at k2; cases k2
            | some g1 =>
              rw [h1] at k2
              exact ⟨g1, rfl, (ih g1).1.2 ⟨is, k1, k2, k3⟩⟩
        have useValue : ∀ js, (∃ g1, addAll cli g js = some g1 ∧ cli.parse true as g1 = .run g') ↔
            ∃ v as' n is, as = v :: as' ∧ ¬ LooksLikeOption v ∧ Writes v n ∧ Says cli as' is ∧
              addAll cli g (js ++ .context n :: is) = some g' ∧ g'.paths.length = cli.paths := by
          intro js
          constructor
          · rintro ⟨g1, h1, h2⟩
            obtain ⟨v, as', n, is, k0, k1, k2, k3, k4, k5⟩ := (ih g1).2.1 h2
            exact ⟨v, as', n, is, k0, k1, k2, k3, by rw [addAll_append, h1]; exact k4, k5⟩
          · rintro ⟨v, as', n, is, k0, k1, k2, k3, k4, k5⟩
            rw [addAll_append] at k4
            cases h1 : addAll cli g js with
            | none => rw [h1] at k4; cases k4
            | some g1 =>
              rw [h1] at k4
              exact ⟨g1, rfl, (ih g1).2.2 ⟨v, as', n, is, k0, k1, k2, k3, k4, k5⟩⟩
        rcases arg_cases a with ⟨body, rfl⟩ | ⟨l, ls, hl, rfl⟩ | hno
        · simp only [arg_long, Bool.false_eq_true, if_false]
          constructor
          · rintro (⟨g1, h1, h2⟩ | ⟨g1, h1, h2⟩)
            · obtain ⟨i, k1, k2⟩ := (longArg_go cli body g g1).1 h1
              obtain ⟨is, m1, m2, m3⟩ := (use [i]).1 ⟨g1, by simp [addAll, k2], h2⟩
              exact ⟨_, .long k1 m1, m2, m3⟩
            · obtain ⟨rfl, hc, rfl⟩ := (longArg_value cli body g g1).1 h1
              obtain ⟨v, as', n, is, rfl, k1, k2, k3, k4, k5⟩ := (useValue []).1 ⟨g1, rfl, h2⟩
              exact ⟨_, .context hc k2 k1 k3, k4, k5⟩
          · rintro ⟨is, h1, h2, h3⟩
            rcases h1.cons_inv with ⟨k, -⟩ | ⟨-, k, -⟩ | ⟨body', i, is', k, k1, rfl, k2⟩ | ⟨k, hc, v, as', n, is', rfl, k1, k2, rfl, k3⟩ |
              ⟨ls, js, is', -, k, k1, -⟩ | ⟨fs, js, k, -, k1, -⟩
            · exact absurd k ha
            · exact absurd ⟨45, body, rfl⟩ k
            · cases k
              obtain ⟨g1, m1, m2⟩ := (use [i]).2 ⟨is', k2, h2, h3⟩
              exact .inl ⟨g1, (longArg_go cli body g g1).2 ⟨i, k1, by simpa [addAll] using m1⟩, m2⟩
            · cases k
              obtain ⟨g1, m1, m2⟩ := (useValue []).2 ⟨v, as', n, is', rfl, k1, k2, k3, h2, h3⟩
              cases m1
              exact .inr ⟨g, (longArg_value cli _ g g).2 ⟨rfl, hc, rfl⟩, m2⟩
            · cases k
              exact absurd rfl k1.first
            · obtain ⟨l, ls, e, hl⟩ := k1.first
              rw [e] at k
              cases k
              exact absurd rfl hl
        · simp only [arg_short cli false hl, Bool.false_eq_true, if_false]
          constructor
          · rintro (⟨g1, h1, h2⟩ | ⟨g1, h1, h2⟩)
            · obtain ⟨js, k1, k2⟩ := (shortArg_go cli (l :: ls) g g1).1 h1
              obtain ⟨is, m1, m2, m3⟩ := (use js).1 ⟨g1, k2, h2⟩
              exact ⟨_, .short (by simp) k1 m1, m2, m3⟩
            · obtain ⟨fs, js, e, hc, k1, k2⟩ := (shortArg_value cli (l :: ls) g g1).1 h1
              obtain ⟨v, as', n, is, rfl, m1, m2, m3, m4, m5⟩ := (useValue js).1 ⟨g1, k2, h2⟩
              rw [e]
              exact ⟨_, .lettersNext k1 hc m2 m1 m3, m4, m5⟩
          · rintro ⟨is, h1, h2, h3⟩
            rcases h1.cons_inv with ⟨k, -⟩ | ⟨-, k, -⟩ | ⟨body', i, is', k, -⟩ | ⟨k, -⟩ |
              ⟨ls', js, is', -, k, k1, rfl, k2⟩ | ⟨fs, js, k, hc, k1, v, as', n, is', rfl, k2, k3, rfl, k4⟩
            · exact absurd k ha
            · exact absurd ⟨l, ls, rfl⟩ k
            · cases k; exact absurd rfl hl
            · cases k; exact absurd rfl hl
            · cases k
              obtain ⟨g1, m1, m2⟩ := (use js).2 ⟨is', k2, h2, h3⟩
              exact .inl ⟨g1, (shortArg_go cli _ g g1).2 ⟨js, k1, m1⟩, m2⟩
            · obtain ⟨g1, m1, m2⟩ := (useValue js).2 ⟨v, as', n, is', rfl, k2, k3, k4, h2, h3⟩
              exact .inr ⟨g1, (shortArg_value cli _ g g1).2 ⟨fs, js, List.tail_eq_of_cons_eq k, hc, k1, m1⟩, m2⟩
        · simp only [arg_other cli false hno, Bool.false_eq_true, if_false]
          constructor
          · rintro (⟨g1, h1, h2⟩ | ⟨g1, h1, h2⟩)
            · obtain ⟨k0, k1⟩ := (pathArg_go cli a g g1).1 h1
              obtain ⟨is, m1, m2, m3⟩ := (use [.path a]).1 ⟨g1, by simp [addAll, k1], h2⟩
              exact ⟨_, .path a k0 hno m1, m2, m3⟩
            · rcases pathArg_go_or cli a g with ⟨g2, k⟩ | k <;> (rw [k] at h1; cases h1)
          · rintro ⟨is, h1, h2, h3⟩
            rcases h1.cons_inv with ⟨k, -⟩ | ⟨k0, -, is', rfl, k1⟩ | ⟨body', i, is', k, -⟩ | ⟨k, -⟩ |
              ⟨ls', js, is', k0, k, -⟩ | ⟨fs, js, k, -⟩
            · exact absurd k ha
            · obtain ⟨g1, m1, m2⟩ := (use [.path a]).2 ⟨is', k1, h2, h3⟩
              exact .inl ⟨g1, (pathArg_go cli a g g1).2 ⟨k0, by simpa [addAll] using m1⟩, m2⟩
            · exact absurd ⟨_, _, k⟩ hno
            · exact absurd ⟨_, _, k⟩ hno
            · obtain ⟨x, y, rfl⟩ := List.exists_cons_of_ne_nil k0
              exact absurd ⟨_, _, k⟩ hno
            · cases fs with
              | nil => exact absurd ⟨_, _, k⟩ hno
              | cons f fs => exact absurd ⟨_, _, k⟩ hno
    · rw [Cli.parse]
      by_cases ha : a = [45, 45]
      · rw [if_pos ha]
        simp only [if_true]
        constructor
        · intro h; cases h
        · rintro ⟨v, as', n, is, h, h1, -⟩
          cases h
          exact absurd ⟨45, [], ha⟩ h1
      · rw [if_neg ha]
        have looks : LooksLikeOption a → cli.arg true a g = .error := by
          intro h
          rcases arg_cases a with ⟨body, rfl⟩ | ⟨l, ls, hl, rfl⟩ | hno
          · rfl
          · rw [arg_short cli true hl]; rfl
          · exact absurd h hno
        by_cases hlo : LooksLikeOption a
        · rw [looks hlo]
          simp only
          constructor
          · intro h; cases h
          · rintro ⟨v, as', n, is, h, h1, -⟩
            cases h
            exact absurd hlo h1
        · rw [arg_other cli true hlo, if_pos rfl]
          constructor
          · intro h
            cases hk : Cli.setContext a g with
            | go g1 =>
              rw [hk] at h
              obtain ⟨n, k1, k2⟩ := (setContext_eq a g g1 cli).1 hk
              obtain ⟨is, m1, m2, m3⟩ := (ih g1).1.1 h
              exact ⟨a, as, n, is, rfl, hlo, k1, m1, by simp only [addAll, k2]; exact m2, m3⟩
            | value g1 => exact absurd hk (setContext_ne_value _ _ _)
            | help => exact absurd hk (setContext_ne_help _ _)
            | error => rw [hk] at h; cases h
          · rintro ⟨v, as', n, is, h, h1, h2, h3, h4, h5⟩
            cases h
            simp only [addAll] at h4
            cases hk : addSaid cli g (.context n) with
            | none => rw [hk] at h4; cases h4
            | some g1 =>
              rw [hk] at h4
              rw [(setContext_eq a g g1 cli).2 ⟨n, h2, hk⟩]
              exact (ih g1).1.2 ⟨is, h3, h4, h5⟩

/-! ## What is said together -/

theorem addAll_means (cli : Cli) (is : List Said) (g g' : Given) (hv : g.verbose ≤ 255) :
    addAll cli g is = some g' ↔ g'.paths = g.paths ++ saidPaths is ∧ (saidPaths is ≠ [] → g'.paths.length ≤ cli.paths) ∧
      g'.verbose = min 255 (g.verbose + is.count .verbose) ∧ g'.context.toList = g.context.toList ++ saidContexts is ∧
      (if g.reverse then 1 else 0) + is.count .reverse = if g'.reverse then 1 else 0 := by
  induction is generalizing g with
  | nil =>
    obtain ⟨v, c, r, ps⟩ := g
    obtain ⟨v', c', r', ps'⟩ := g'
    simp only [addAll, Option.some.injEq, Given.mk.injEq, saidPaths, saidContexts, List.filterMap_nil, List.append_nil, List.count_nil,
      Nat.add_zero, ne_eq, not_true_eq_false, false_implies, true_and]
    simp only at hv
    rw [Nat.min_eq_right hv]
    constructor
    · rintro ⟨rfl, rfl, rfl, rfl⟩
      exact ⟨rfl, rfl, rfl, rfl⟩
    · rintro ⟨rfl, rfl, h3, h4⟩
      refine ⟨rfl, ?_, ?_, rfl⟩
      · cases c <;> cases c' <;> simp_all
      · cases r <;> cases r' <;> simp_all
  | cons i is ih =>
    cases i with
    | verbose =>
      simp only [addAll, addSaid, Option.bind_some]
      rw [ih _ (by simp only; omega)]
      simp only [saidPaths, saidContexts, List.filterMap_cons, List.count_cons_self]
      rw [show is.count .reverse = (Said.verbose :: is).count .reverse by rw [List.count_cons_of_ne (by decide)]]
      rw [show min 255 (min 255 (g.verbose + 1) + is.count .verbose) = min 255 (g.verbose + (is.count .verbose + 1)) by omega]
    | context n =>
      simp only [addAll, addSaid]
      by_cases hc : g.context = none
      · rw [if_pos hc, Option.bind_some, ih { g with context := some n } hv]
        simp only [saidPaths, saidContexts, List.filterMap_cons]
        rw [List.count_cons_of_ne (by simp), List.count_cons_of_ne (by simp)]
        simp [hc]
      · rw [if_neg hc]
        obtain ⟨m, hm⟩ := Option.ne_none_iff_exists'.1 hc
        constructor
        · intro h; cases h
        · rintro ⟨-, -, -, h, -⟩
          have := congrArg List.length h
          simp only [saidContexts, List.filterMap_cons, hm, Option.toList_some, List.cons_append, List.length_cons] at this
          cases hg : g'.context <;> simp [hg] at this
    | reverse =>
      simp only [addAll, addSaid]
      cases hr : g.reverse with
      | true =>
        simp only [if_true]
        constructor
        · intro h; cases h
        · rintro ⟨-, -, -, -, h⟩
          rw [List.count_cons_self] at h
          split at h <;> omega
      | false =>
        simp only [Bool.false_eq_true, if_false, Option.bind_some]
        rw [ih { g with reverse := true } hv]
        simp only [saidPaths, saidContexts, List.filterMap_cons, List.count_cons_self]
        rw [show is.count .verbose = (Said.reverse :: is).count .verbose by rw [List.count_cons_of_ne (by decide)]]
        simp only [if_true]
        rw [show 1 + is.count Said.reverse = 0 + (is.count Said.reverse + 1) by omega]
    | path p =>
      simp only [addAll, addSaid]
      have hp : saidPaths (.path p :: is) = p :: saidPaths is := rfl
      have hcx : saidContexts (.path p :: is) = saidContexts is := rfl
      rw [hp, hcx, List.count_cons_of_ne (by simp), List.count_cons_of_ne (by simp)]
      by_cases hl : g.paths.length < cli.paths
      · rw [if_pos hl, Option.bind_some, ih { g with paths := g.paths ++ [p] } hv]
        simp only [List.append_assoc, List.cons_append, List.nil_append]
        constructor
        · rintro ⟨h1, h2, h3⟩
          refine ⟨h1, fun _ => ?_, h3⟩
          by_cases he : saidPaths is = []
          · rw [h1, he]
            simp
            omega
          · exact h2 he
        · rintro ⟨h1, h2, h3⟩
          exact ⟨h1, fun _ => h2 (by simp), h3⟩
      · rw [if_neg hl]
        constructor
        · intro h; cases h
        · rintro ⟨h1, h2, -⟩
          have := h2 (by simp)
          rw [h1] at this
          simp at this
          omega

theorem addAll_means_start (cli : Cli) (is : List Said) (g : Given) :
    addAll cli {} is = some g ∧ g.paths.length = cli.paths ↔ Means cli is g := by
  rw [addAll_means cli is {} g (by decide)]
  simp only [List.nil_append, Nat.zero_add, Option.toList_none, Bool.false_eq_true, if_false]
  constructor
  · rintro ⟨⟨h1, h2, h3, h4, h5⟩, h6⟩
    exact ⟨h1, by rw [← h1, h6], h3, h4, h5⟩
  · intro h
    exact ⟨⟨h.paths, fun _ => by rw [h.paths, h.enough]; exact Nat.le_refl _, h.verbose, h.context, h.reverse⟩, by rw [h.paths, h.enough]⟩

theorem addAll_possible (cli : Cli) (is : List Said) : (∃ g, addAll cli {} is = some g) ↔ Possible cli is := by
  constructor
  · rintro ⟨g, h⟩
    obtain ⟨h1, h2, h3, h4, h5⟩ := (addAll_means cli is {} g (by decide)).1 h
    simp only [List.nil_append, Option.toList_none, Bool.false_eq_true, if_false, Nat.zero_add] at h1 h4 h5
    refine ⟨?_, ?_, ?_⟩
    · by_cases he : saidPaths is = []
      · rw [he]; exact Nat.zero_le _
      · rw [← h1]; exact h2 he
    · rw [← h4]; cases g.context <;> simp
    · rw [h5]; split <;> omega
  · intro h
    refine ⟨⟨min 255 (is.count .verbose), (saidContexts is).head?, decide (is.count .reverse = 1), saidPaths is⟩,
      (addAll_means cli is {} _ (by decide)).2 ⟨rfl, fun _ => h.paths, ?_, ?_, ?_⟩⟩
    · simp
    · have := h.context
      cases hs : saidContexts is with
      | nil => rfl
      | cons n l =>
        rw [hs] at this
        cases l with
        | nil => rfl
        | cons m l => simp at this
    · have := h.reverse
      simp only [Bool.false_eq_true, if_false, Nat.zero_add, decide_eq_true_eq]
      split <;> omega

/-! ## Help -/

theorem addSaid_value {cli : Cli} {g g' : Given} {n : Nat} (h : addSaid cli g (.context n) = some g') {v : Arg} (hv : Writes v n) :
    Cli.setContext v g = .go g' := (setContext_eq v g g' cli).2 ⟨n, hv, h⟩

theorem addAll_cons {cli : Cli} {g g' : Given} {i : Said} {is : List Said} (h : addAll cli g (i :: is) = some g') :
    ∃ g1, addSaid cli g i = some g1 ∧ addAll cli g1 is = some g' := by
  simp only [addAll] at h
  cases hk : addSaid cli g i with
  | none => rw [hk] at h; cases h
  | some g1 => rw [hk] at h; exact ⟨g1, rfl, h⟩

theorem addAll_split {cli : Cli} {g g' : Given} {is js : List Said} (h : addAll cli g (is ++ js) = some g') :
    ∃ g1, addAll cli g is = some g1 ∧ addAll cli g1 js = some g' := by
  rw [addAll_append] at h
  cases hk : addAll cli g is with
  | none => rw [hk] at h; cases h
  | some g1 => rw [hk] at h; exact ⟨g1, rfl, h⟩

theorem parse_go {cli : Cli} {awaited : Bool} {a : Arg} {g g1 : Given} (ha : a ≠ [45, 45]) (h : cli.arg awaited a g = .go g1)
    (rest : List Arg) : cli.parse awaited (a :: rest) g = cli.parse false rest g1 := by
  rw [Cli.parse, if_neg ha, h]

theorem parse_value {cli : Cli} {awaited : Bool} {a : Arg} {g g1 : Given} (ha : a ≠ [45, 45]) (h : cli.arg awaited a g = .value g1)
    (rest : List Arg) : cli.parse awaited (a :: rest) g = cli.parse true rest g1 := by
  rw [Cli.parse, if_neg ha, h]

theorem parse_short_go {cli : Cli} {ls : List UInt8} (h0 : ls ≠ []) {js : List Said} (hs : ShortSays cli ls js) {g g1 : Given}
    (h : addAll cli g js = some g1) (rest : List Arg) : cli.parse false ((45 :: ls) :: rest) g = cli.parse false rest g1 := by
  obtain ⟨l, ls, rfl⟩ := List.exists_cons_of_ne_nil h0
  refine parse_go (by intro hk; cases hk; exact absurd rfl hs.first) ?_ rest
  rw [arg_short cli false hs.first]
  exact (shortArg_go cli _ g g1).2 ⟨js, hs, h⟩

theorem parse_long_go {cli : Cli} {body : Arg} {i : Said} (hs : LongSays cli body i) {g g1 : Given}
    (h : addSaid cli g i = some g1) (rest : List Arg) : cli.parse false ((45 :: 45 :: body) :: rest) g = cli.parse false rest g1 := by
  refine parse_go (by intro hk; cases hk; exact hs.not_nil) ?_ rest
  rw [arg_long]
  exact (longArg_go cli body g g1).2 ⟨i, hs, h⟩

theorem parse_awaited {cli : Cli} {v : Arg} {n : Nat} (hv : Writes v n) (hl : ¬ LooksLikeOption v) {g g1 : Given}
    (h : addSaid cli g (.context n) = some g1) (rest : List Arg) : cli.parse true (v :: rest) g = cli.parse false rest g1 := by
  refine parse_go (by rintro rfl; exact hl ⟨_, _, rfl⟩) ?_ rest
  rw [arg_other cli true hl]
  exact addSaid_value h hv

/-- What has been said can be gone on from. -/
theorem parse_append {cli : Cli} {as : List Arg} {is : List Said} (h : Says cli as is) (hd : [45, 45] ∉ as) {g g' : Given}
    (ha : addAll cli g is = some g') (rest : List Arg) : cli.parse false (as ++ rest) g = cli.parse false rest g' := by
  induction h generalizing g with
  | nil => cases ha; rfl
  | rest ps h => exact absurd List.mem_cons_self hd
  | path p h0 h1 h ih =>
    obtain ⟨g1, k1, k2⟩ := addAll_cons ha
    rw [List.cons_append, parse_go (by rintro rfl; exact h1 ⟨_, _, rfl⟩)
      (by rw [arg_other cli false h1]; exact (pathArg_go cli p g g1).2 ⟨h0, k1⟩)]
    exact ih (fun hk => hd (.tail _ hk)) k2
  | verbose h ih =>
    obtain ⟨g1, k1, k2⟩ := addAll_cons ha
    rw [List.cons_append, parse_long_go .verbose k1]
    exact ih (fun hk => hd (.tail _ hk)) k2
  | reverse hr h ih =>
    obtain ⟨g1, k1, k2⟩ := addAll_cons ha
    rw [List.cons_append, parse_long_go (.reverse hr) k1]
    exact ih (fun hk => hd (.tail _ hk)) k2
  | contextEq hc hv h ih =>
    obtain ⟨g1, k1, k2⟩ := addAll_cons ha
    rw [List.cons_append, parse_long_go (.context hc hv) k1]
    exact ih (fun hk => hd (.tail _ hk)) k2
  | context hc hv hl h ih =>
    obtain ⟨g1, k1, k2⟩ := addAll_cons ha
    rw [List.cons_append, parse_value (by decide +kernel) (by rw [arg_long]; exact (longArg_value cli _ g g).2 ⟨rfl, hc, rfl⟩),
      List.cons_append, parse_awaited hv hl k1]
    exact ih (fun hk => hd (.tail _ (.tail _ hk))) k2
  | letters h0 hl h ih =>
    obtain ⟨g1, k1, k2⟩ := addAll_split ha
    rw [List.cons_append, parse_short_go h0 (.letters hl) k1]
    exact ih (fun hk => hd (.tail _ hk)) k2
  | @lettersValue as is ls js hl hc v n hv h ih =>
    rw [show js ++ Said.context n :: is = (js ++ [.context n]) ++ is by simp] at ha
    obtain ⟨g1, k1, k2⟩ := addAll_split ha
    rw [List.cons_append, parse_short_go (by simp) (.value hl hc hv) k1]
    exact ih (fun hk => hd (.tail _ hk)) k2
  | @lettersEq as is ls js hl hc v n hv h ih =>
    rw [show js ++ Said.context n :: is = (js ++ [.context n]) ++ is by simp] at ha
    obtain ⟨g1, k1, k2⟩ := addAll_split ha
    rw [List.cons_append, parse_short_go (by simp) (.eq hl hc hv) k1]
    exact ih (fun hk => hd (.tail _ hk)) k2
  | @lettersNext as is ls js hl hc v n hv hn h ih =>
    obtain ⟨g1, k1, k2⟩ := addAll_split ha
    obtain ⟨g2, k3, k4⟩ := addAll_cons k2
    obtain ⟨l, ls', e, hl'⟩ := hl.first
    rw [List.cons_append, parse_value (by rw [e]; intro hk; cases hk; exact hl' rfl)
      (by rw [e, arg_short cli false hl']; exact (shortArg_value cli _ g g1).2 ⟨ls, js, e.symm, hc, hl, k1⟩),
      List.cons_append, parse_awaited hv hn k3]
    exact ih (fun hk => hd (.tail _ (.tail _ hk))) k4

theorem setFlag_help (f : Flag) (g : Given) : Cli.setFlag f g = .help ↔ f = .help := by
  cases f <;> simp [Cli.setFlag]
  split <;> simp

theorem longArg_help (cli : Cli) (body : Arg) (g : Given) : cli.longArg body g = .help ↔ body = Cli.helpName := by
  obtain ⟨d1, d2, d3, d4, d5, d6⟩ := names_differ
  rcases split_eq body with hp | ⟨name, v, rfl, hp⟩
  · rw [longArg_plain cli hp]
    rcases long_cases cli body with ⟨rfl, h⟩ | ⟨rfl, hc, h⟩ | ⟨rfl, hr, h⟩ | ⟨rfl, h⟩ | ⟨h1, h2, h3, h4, h⟩ <;> rw [h] <;> simp only [setFlag_help]
    · simp [d3]
    · simp [d5]
    · simp [d6]
    · simp [h4]
  · have : cli.longArg (name ++ 61 :: v) g ≠ .help := by
      rw [longArg_stop cli hp]
      split
      · exact setContext_ne_help _ _
      · simp
    constructor
    · intro k; exact absurd k this
    · intro k
      exact absurd rfl (names_plain.2.2.2 61 (by rw [← k]; simp))

theorem shortArg_help_iff (cli : Cli) (ls : List UInt8) (g : Given) :
    cli.shortArg ls g = .help ↔ ∃ fs js rest g1, ls = fs ++ 104 :: rest ∧ Letters cli fs js ∧ addAll cli g js = some g1 := by
  induction ls generalizing g with
  | nil =>
    constructor
    · intro h; cases h
    · rintro ⟨fs, js, rest, g1, h, -⟩; simp at h
  | cons l ls ih =>
    have inv : ∀ {fs js rest g1}, l :: ls = fs ++ 104 :: rest → Letters cli fs js → addAll cli g js = some g1 →
        l = 104 ∨
        (l = 118 ∧ ∃ fs' js', ls = fs' ++ 104 :: rest ∧ Letters cli fs' js' ∧
          addAll cli { g with verbose := min 255 (g.verbose + 1) } js' = some g1) ∨
        (l = 114 ∧ cli.reverse = true ∧ g.reverse = false ∧ ∃ fs' js', ls = fs' ++ 104 :: rest ∧ Letters cli fs' js' ∧
          addAll cli { g with reverse := true } js' = some g1) := by
      intro fs js rest g1 h1 h2 h3
      cases h2 with
      | nil => cases h1; exact .inl rfl
      | verbose h => cases h1; exact .inr (.inl ⟨rfl, _, _, rfl, h, h3⟩)
      | reverse hr h =>
        cases h1
        cases hg : g.reverse with
        | true => simp [addAll, addSaid, hg] at h3
        | false => exact .inr (.inr ⟨rfl, hr, rfl, _, _, rfl, h, by simpa [addAll, addSaid, hg] using h3⟩)
    rcases short_cases cli l with ⟨rfl, h⟩ | ⟨rfl, hc, h⟩ | ⟨rfl, hr, h⟩ | ⟨rfl, h⟩ | ⟨h1, h2, h3, h4, h⟩
    · rw [shortArg_verbose h, ih]
      constructor
      · rintro ⟨fs, js, rest, g1, rfl, k2, k3⟩
        exact ⟨118 :: fs, _, rest, g1, rfl, .verbose k2, k3⟩
      · rintro ⟨fs, js, rest, g1, k1, k2, k3⟩
        rcases inv k1 k2 k3 with k | ⟨-, fs', js', m1, m2, m3⟩ | ⟨k, -⟩
        · exact absurd k (by decide)
        · exact ⟨fs', js', rest, g1, m1, m2, m3⟩
        · exact absurd k (by decide)
    · have : cli.shortArg (99 :: ls) g ≠ .help := by
        cases ls with
        | nil => rw [shortArg_context_end h]; simp
        | cons d v =>
          by_cases hd : d = 61
          · subst hd
            rw [shortArg_context_eq h]
            exact setContext_ne_help _ _
          · rw [shortArg_context h hd]
            exact setContext_ne_help _ _
      constructor
      · intro k; exact absurd k this
      · rintro ⟨fs, js, rest, g1, k1, k2, k3⟩
        rcases inv k1 k2 k3 with k | ⟨k, -⟩ | ⟨k, -⟩ <;> exact absurd k (by decide)
    · rw [shortArg_reverse h]
      cases hg : g.reverse with
      | true =>
        simp only [if_true]
        constructor
        · intro h; cases h
        · rintro ⟨fs, js, rest, g1, k1, k2, k3⟩
          rcases inv k1 k2 k3 with k | ⟨k, -⟩ | ⟨-, -, k, -⟩
          · exact absurd k (by decide)
          · exact absurd k (by decide)
          · rw [hg] at k; cases k
      | false =>
        simp only [Bool.false_eq_true, if_false]
        rw [ih]
        constructor
        · rintro ⟨fs, js, rest, g1, rfl, k2, k3⟩
          exact ⟨114 :: fs, _, rest, g1, rfl, .reverse hr k2, by simpa [addAll, addSaid, hg] using k3⟩
        · rintro ⟨fs, js, rest, g1, k1, k2, k3⟩
          rcases inv k1 k2 k3 with k | ⟨k, -⟩ | ⟨-, -, -, fs', js', m1, m2, m3⟩
          · exact absurd k (by decide)
          · exact absurd k (by decide)
          · exact ⟨fs', js', rest, g1, m1, m2, m3⟩
    · rw [shortArg_help h]
      exact iff_of_true rfl ⟨[], [], ls, g, rfl, .nil, rfl⟩
    · rw [shortArg_none h]
      constructor
      · intro h; cases h
      · rintro ⟨fs, js, rest, g1, k1, k2, k3⟩
        rcases inv k1 k2 k3 with k | ⟨k, -⟩ | ⟨k, hr, -⟩
        · exact absurd k h4
        · exact absurd k h1
        · exact absurd ⟨k, hr⟩ h3

theorem Letters.firstHelp {cli : Cli} {fs js rest} (h : Letters cli fs js) : ∃ l ls, fs ++ 104 :: rest = l :: ls ∧ l ≠ 45 := by
  cases h with
  | nil => exact ⟨104, _, rfl, by decide⟩
  | verbose h => exact ⟨118, _, rfl, by decide⟩
  | reverse hr h => exact ⟨114, _, rfl, by decide⟩

theorem parseRest_ne_help (cli : Cli) (as : List Arg) (g : Given) : cli.parseRest as g ≠ .help := by
  induction as generalizing g with
  | nil =>
    unfold Cli.parseRest Cli.finish
    split <;> simp
  | cons a as ih =>
    unfold Cli.parseRest
    split
    · exact ih _
    · simp

/-- Help is asked for, from any state on. -/
theorem parse_help (cli : Cli) (as : List Arg) (g : Given) :
    cli.parse false as g = .help ↔ ∃ pre a post is js g1, as = pre ++ a :: post ∧ Says cli pre is ∧ [45, 45] ∉ pre ∧
      AsksHelp cli a js ∧ addAll cli g (is ++ js) = some g1 := by
  constructor
  · intro h
    -- by strong induction, because the value of an option is an argument of its own
    generalize hn : as.length = n at h
    induction n using Nat.strongRecOn generalizing as g with
    | _ n ih =>
      cases as with
      | nil =>
        unfold Cli.parse Cli.finish at h
        simp only [Bool.false_eq_true, if_false] at h
        split at h <;> cases h
      | cons a as =>
        by_cases ha : a = [45, 45]
        · rw [Cli.parse, if_pos ha] at h
          simp only [Bool.false_eq_true, if_false] at h
          exact absurd h (parseRest_ne_help cli as g)
        · have after : ∀ js g1, addAll cli g js = some g1 → (∀ is' as', Says cli as' is' → Says cli (a :: as') (js ++ is')) →
              cli.parse false as g1 = .help → ∃ pre b post is js g2, a :: as = pre ++ b :: post ∧ Says cli pre is ∧ [45, 45] ∉ pre ∧
                AsksHelp cli b js ∧ addAll cli g (is ++ js) = some g2 := by
            intro js g1 h1 h2 h3
            obtain ⟨pre, b, post, is, js', g2, k1, k2, k3, k4, k5⟩ := ih as.length (by rw [← hn]; simp) as g1 h3 rfl
            refine ⟨a :: pre, b, post, js ++ is, js', g2, by rw [k1]; rfl, h2 is pre k2, ?_, k4, ?_⟩
            · intro hk
              rcases List.mem_cons.1 hk with hk | hk
              · exact ha hk.symm
              · exact k3 hk
            · rw [List.append_assoc, addAll_append, h1]
              exact k5
          have afterValue : ∀ js g1, addAll cli g js = some g1 →
              (∀ v n is' as', Writes v n → ¬ LooksLikeOption v → Says cli as' is' → Says cli (a :: v :: as') (js ++ .context n :: is')) →
              cli.parse true as g1 = .help → ∃ pre b post is js g2, a :: as = pre ++ b :: post ∧ Says cli pre is ∧ [45, 45] ∉ pre ∧
                AsksHelp cli b js ∧ addAll cli g (is ++ js) = some g2 := by
            intro js g1 h1 h2 h3
            cases as with
            | nil => unfold Cli.parse at h3; simp at h3
            | cons v as =>
              by_cases hv : v = [45, 45]
              · rw [Cli.parse, if_pos hv] at h3; simp at h3
              · by_cases hl : LooksLikeOption v
                · rw [Cli.parse, if_neg hv] at h3
                  have : cli.arg true v g1 = .error := by
                    rcases arg_cases v with ⟨body, rfl⟩ | ⟨l, ls, hl', rfl⟩ | hno
                    · rfl
                    · rw [arg_short cli true hl']; rfl
                    · exact absurd hl hno
                  rw [this] at h3
                  cases h3
                · rw [Cli.parse, if_neg hv, arg_other cli true hl, if_pos rfl] at h3
                  cases hk : Cli.setContext v g1 with
                  | value g2 => exact absurd hk (setContext_ne_value _ _ _)
                  | help => exact absurd hk (setContext_ne_help _ _)
                  | error => rw [hk] at h3; cases h3
                  | go g2 =>
                    rw [hk] at h3
                    obtain ⟨m, m1, m2⟩ := (setContext_eq v g1 g2 cli).1 hk
                    obtain ⟨pre, b, post, is, js', g3, k1, k2, k3, k4, k5⟩ := ih as.length (by rw [← hn]; simp; omega) as g2 h3 rfl
                    refine ⟨a :: v :: pre, b, post, js ++ .context m :: is, js', g3, by rw [k1]; rfl, h2 v m is pre m1 hl k2, ?_, k4, ?_⟩
                    · intro hk
                      rcases List.mem_cons.1 hk with hk | hk
                      · exact ha hk.symm
                      · rcases List.mem_cons.1 hk with hk | hk
                        · exact hv hk.symm
                        · exact k3 hk
                    · rw [List.append_assoc, addAll_append, h1]
                      simp only [Option.bind_some, List.cons_append, addAll, m2]
                      exact k5
          rw [Cli.parse, if_neg ha] at h
          rcases arg_cases a with ⟨body, rfl⟩ | ⟨l, ls, hl, rfl⟩ | hno
          · rw [arg_long] at h
            simp only [Bool.false_eq_true, if_false] at h
            cases hk : cli.longArg body g with
            | error => rw [hk] at h; cases h
            | help =>
              have := (longArg_help cli body g).1 hk
              exact ⟨[], _, as, [], [], g, rfl, .nil, by simp, .inl ⟨by rw [this], rfl⟩, rfl⟩
            | go g1 =>
              rw [hk] at h
              obtain ⟨i, m1, m2⟩ := (longArg_go cli body g g1).1 hk
              exact after [i] g1 (by simp [addAll, m2]) (fun is' as' hs => .long m1 hs) h
            | value g1 =>
              rw [hk] at h
              obtain ⟨rfl, hc, rfl⟩ := (longArg_value cli body g g1).1 hk
              exact afterValue [] g1 rfl (fun v n is' as' hv hl hs => .context hc hv hl hs) h
          · rw [arg_short cli false hl] at h
            simp only [Bool.false_eq_true, if_false] at h
            cases hk : cli.shortArg (l :: ls) g with
            | error => rw [hk] at h; cases h
            | help =>
              obtain ⟨fs, js, rest, g1, m1, m2, m3⟩ := (shortArg_help_iff cli _ g).1 hk
              exact ⟨[], _, as, [], js, g1, rfl, .nil, by simp, .inr ⟨fs, rest, by rw [m1], m2⟩, m3⟩
            | go g1 =>
              rw [hk] at h
              obtain ⟨js, m1, m2⟩ := (shortArg_go cli _ g g1).1 hk
              exact after js g1 m2 (fun is' as' hs => .short (by simp) m1 hs) h
            | value g1 =>
              rw [hk] at h
              obtain ⟨fs, js, e, hc, m1, m2⟩ := (shortArg_value cli _ g g1).1 hk
              exact afterValue js g1 m2 (fun v n is' as' hv hl hs => by rw [e]; exact .lettersNext m1 hc hv hl hs) h
          · rw [arg_other cli false hno] at h
            simp only [Bool.false_eq_true, if_false] at h
            rcases pathArg_go_or cli a g with ⟨g1, hk⟩ | hk
            · rw [hk] at h
              obtain ⟨m1, m2⟩ := (pathArg_go cli a g g1).1 hk
              exact after [.path a] g1 (by simp [addAll, m2]) (fun is' as' hs => .path a m1 hno hs) h
            · rw [hk] at h; cases h
  · rintro ⟨pre, a, post, is, js, g1, rfl, h1, h2, h3, h4⟩
    obtain ⟨g2, k1, k2⟩ := addAll_split h4
    rw [parse_append h1 h2 k1]
    rcases h3 with ⟨rfl, rfl⟩ | ⟨fs, rest, rfl, hl⟩
    · rw [Cli.parse, if_neg (by decide +kernel), arg_long]
      simp only [Bool.false_eq_true, if_false]
      rw [(longArg_help cli _ g2).2 rfl]
    · obtain ⟨l, ls, e, hl'⟩ := hl.firstHelp (rest := rest)
      rw [e, Cli.parse, if_neg (by intro hk; cases hk; exact hl' rfl), arg_short cli false hl']
      simp only [Bool.false_eq_true, if_false]
      rw [(shortArg_help_iff cli _ g2).2 ⟨fs, js, rest, g1, e.symm, hl, k2⟩]

/-! ## One meaning -/

theorem Writes.one {v : Arg} {n m : Nat} (h : Writes v n) (h' : Writes v m) : n = m := by
  have := ((u8Value_eq v n).2 h).symm.trans ((u8Value_eq v m).2 h')
  exact Option.some.inj this

theorem LongSays.one {cli : Cli} {body : Arg} {i j : Said} (h : LongSays cli body i) (h' : LongSays cli body j) : i = j := by
  obtain ⟨d1, d2, d3, d4, d5, d6⟩ := names_differ
  rcases split_eq body with hp | ⟨name, v, rfl, hp⟩
  · rcases h.plain hp with ⟨e, rfl⟩ | ⟨e, -, rfl⟩ <;> rcases h'.plain hp with ⟨e', rfl⟩ | ⟨e', -, rfl⟩
    · rfl
    · exact absurd (e.symm.trans e') d2
    · exact absurd (e'.symm.trans e) d2
    · rfl
  · obtain ⟨-, -, n, k1, rfl⟩ := h.stop hp
    obtain ⟨-, -, m, k2, rfl⟩ := h'.stop hp
    rw [k1.one k2]

theorem ShortSays.one {cli : Cli} {ls : List UInt8} {js js' : List Said} (h : ShortSays cli ls js) (h' : ShortSays cli ls js') :
    js = js' := by
  induction ls generalizing js js' with
  | nil =>
    have : ∀ {ks}, ShortSays cli [] ks → ks = [] := by
      intro ks hk
      generalize e : ([] : List UInt8) = l at hk
      cases hk with
      | letters h => cases h <;> first | rfl | cases e
      | value => simp at e
      | eq => simp at e
    rw [this h, this h']
  | cons l ls ih =>
    rcases h.cons_inv with ⟨rfl, ks, rfl, k⟩ | ⟨rfl, -, ks, rfl, k⟩ | ⟨rfl, -, v, n, hv, k, rfl⟩ <;>
      rcases h'.cons_inv with ⟨e, ks', rfl, k'⟩ | ⟨e, -, ks', rfl, k'⟩ | ⟨e, -, v', n', hv', k', rfl⟩
    · rw [ih k k']
    · cases e
    · cases e
    · cases e
    · rw [ih k k']
    · cases e
    · cases e
    · cases e
    · rcases hv with rfl | rfl <;> rcases hv' with e1 | e1
      · subst e1; rw [k.one k']
      · subst e1; exact k.not_eq.elim
      · subst e1; exact k'.not_eq.elim
      · cases e1; rw [k.one k']

theorem Letters.awaits {cli : Cli} {fs : List UInt8} {ks js : List Said} (h : Letters cli fs ks) (h' : ShortSays cli (fs ++ [99]) js) :
    False := by
  induction h generalizing js with
  | nil =>
    rcases h'.cons_inv with ⟨e, -⟩ | ⟨e, -⟩ | ⟨-, -, v, n, hv, k, -⟩
    · cases e
    · cases e
    · rcases hv with rfl | e
      · exact k.not_nil
      · cases e
  | verbose h ih =>
    rcases h'.cons_inv with ⟨-, ks, -, k⟩ | ⟨e, -⟩ | ⟨e, -⟩
    · exact ih k
    · cases e
    · cases e
  | reverse hr h ih =>
    rcases h'.cons_inv with ⟨e, -⟩ | ⟨-, -, ks, -, k⟩ | ⟨e, -⟩
    · cases e
    · exact ih k
    · cases e

theorem Says.one {cli : Cli} {as : List Arg} {is is' : List Said} (h : Says cli as is) (h' : Says cli as is') : is = is' := by
  generalize hn : as.length = n
  induction n using Nat.strongRecOn generalizing as is is' with
  | _ n ih =>
    cases as with
    | nil => cases h; cases h'; rfl
    | cons a as =>
      rcases h.cons_inv with ⟨rfl, -, rfl⟩ | ⟨-, hl, t, rfl, k⟩ | ⟨body, i, t, rfl, hb, rfl, k⟩ |
          ⟨rfl, hc, v, as1, m, t, rfl, hl, hv, rfl, k⟩ | ⟨ls, js, t, h0, rfl, hs, rfl, k⟩ |
          ⟨fs, js, rfl, hc, hs, v, as1, m, t, rfl, hl, hv, rfl, k⟩ <;>
        rcases h'.cons_inv with ⟨e, -, e'⟩ | ⟨-, hl', t', e', k'⟩ | ⟨body', i', t', e, hb', e', k'⟩ |
          ⟨e, hc', v', as1', m', t', e2, hl', hv', e', k'⟩ | ⟨ls', js', t', h0', e, hs', e', k'⟩ |
          ⟨fs', js', e, hc', hs', v', as1', m', t', e2, hl', hv', e', k'⟩ <;> subst e'
      -- `--`
      · rfl
      · exact absurd ⟨_, _, rfl⟩ hl'
      · cases e; exact hb'.not_nil.elim
      · exact absurd e (by decide +kernel)
      · cases e; exact absurd rfl hs'.first
      · obtain ⟨l, ls, e1, hl1⟩ := hs'.first
        rw [e1] at e; cases e; exact absurd rfl hl1
      -- a path
      · subst e; exact absurd ⟨_, _, rfl⟩ hl
      · rw [ih as.length (by rw [← hn]; simp) k k' rfl]
      · subst e; exact absurd ⟨_, _, rfl⟩ hl
      · subst e; exact absurd ⟨_, _, rfl⟩ hl
      · subst e
        obtain ⟨l, ls, rfl⟩ := List.exists_cons_of_ne_nil h0'
        exact absurd ⟨_, _, rfl⟩ hl
      · subst e
        obtain ⟨l, ls, e1, hl1⟩ := hs'.first
        rw [e1] at hl; exact absurd ⟨_, _, rfl⟩ hl
      -- two dashes
      · cases e; exact hb.not_nil.elim
      · exact absurd ⟨_, _, rfl⟩ hl'
      · cases e; rw [hb.one hb', ih as.length (by rw [← hn]; simp) k k' rfl]
      · cases e
        rcases hb.plain names_plain.2.1 with ⟨e, -⟩ | ⟨e, -⟩
        · exact absurd e.symm names_differ.1
        · exact absurd e names_differ.2.2.2.1
      · cases e; exact absurd rfl hs'.first
      · obtain ⟨l, ls, e1, hl1⟩ := hs'.first
        rw [e1] at e; cases e; exact absurd rfl hl1
      -- `--context`
      · exact absurd e (by decide +kernel)
      · exact absurd ⟨_, _, rfl⟩ hl'
      · cases e
        rcases hb'.plain names_plain.2.1 with ⟨e, -⟩ | ⟨e, -⟩
        · exact absurd e.symm names_differ.1
        · exact absurd e names_differ.2.2.2.1
      · cases e2; rw [hv.one hv', ih as1.length (by rw [← hn]; simp; omega) k k' rfl]
      · cases e; exact absurd rfl hs'.first
      · obtain ⟨l, ls, e1, hl1⟩ := hs'.first
        rw [e1] at e; cases e; exact absurd rfl hl1
      -- one dash
      · cases e; exact absurd rfl hs.first
      · obtain ⟨l, ls, rfl⟩ := List.exists_cons_of_ne_nil h0
        exact absurd ⟨_, _, rfl⟩ hl'
      · cases e; exact absurd rfl hs.first
      · cases e; exact absurd rfl hs.first
      · cases e; rw [hs.one hs', ih as.length (by rw [← hn]; simp) k k' rfl]
      · cases e; exact (hs'.awaits hs).elim
      -- one dash, with the value in the next argument
      · obtain ⟨l, ls, e1, hl1⟩ := hs.first
        rw [e1] at e; cases e; exact absurd rfl hl1
      · obtain ⟨l, ls, e1, hl1⟩ := hs.first
        rw [e1] at hl'; exact absurd ⟨_, _, rfl⟩ hl'
      · obtain ⟨l, ls, e1, hl1⟩ := hs.first
        rw [e1] at e; cases e; exact absurd rfl hl1
      · obtain ⟨l, ls, e1, hl1⟩ := hs.first
        rw [e1] at e; cases e; exact absurd rfl hl1
      · cases e; exact (hs.awaits hs').elim
      · cases e2
        have : fs = fs' := List.append_cancel_right (List.cons.inj e).2
        subst this
        rw [ShortSays.one (.letters hs) (.letters hs'), hv.one hv', ih as1.length (by rw [← hn]; simp; omega) k k' rfl]

/-! ## Saying anything -/

/-- A number in three digits. -/
def threeDigits (n : Nat) : Arg := [UInt8.ofNat (48 + n / 100), UInt8.ofNat (48 + n / 10 % 10), UInt8.ofNat (48 + n % 10)]

theorem threeDigits_writes {n : Nat} (h : n ≤ 255) : Writes (threeDigits n) n := by
  have t : ∀ m, m < 10 → 48 ≤ UInt8.ofNat (48 + m) ∧ UInt8.ofNat (48 + m) ≤ 57 ∧ (UInt8.ofNat (48 + m)).toNat - 48 = m := by
    intro m hm
    have : (UInt8.ofNat (48 + m)).toNat = 48 + m := by
      rw [UInt8.toNat_ofNat']; omega
    refine ⟨?_, ?_, by omega⟩ <;> rw [UInt8.le_iff_toNat_le, this]
    · simp
    · show 48 + m ≤ 57; omega
  obtain ⟨a1, a2, a3⟩ := t (n / 100) (by omega)
  obtain ⟨b1, b2, b3⟩ := t (n / 10 % 10) (by omega)
  obtain ⟨c1, c2, c3⟩ := t (n % 10) (by omega)
  refine ⟨[], threeDigits n, rfl, .inl rfl, by simp [threeDigits], ?_, ?_, h⟩
  · intro d hd
    simp only [threeDigits, List.mem_cons, List.not_mem_nil, or_false] at hd
    rcases hd with rfl | rfl | rfl
    · exact ⟨a1, a2⟩
    · exact ⟨b1, b2⟩
    · exact ⟨c1, c2⟩
  · simp only [numberOf, threeDigits, List.foldl_cons, List.foldl_nil, a3, b3, c3]
    omega

theorem verbose_says {cli : Cli} {as is} (h : Says cli as is) (k : Nat) :
    Says cli (List.replicate k (45 :: 45 :: Cli.verboseName) ++ as) (List.replicate k .verbose ++ is) := by
  induction k with
  | zero => exact h
  | succ k ih => rw [List.replicate_succ, List.replicate_succ]; exact .verbose ih

end PwDiff
