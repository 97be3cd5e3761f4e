import Verif.Proofs.Regex
import Verif.SpecUnified

/-! # The header patterns -/

namespace PwDiff

open Rx

/-- Only the ASCII digits. -/
def Digits.asciiOnly : Digits where
  is c := c.isDigit
  ascii _ _ := rfl
  notWhite c h := by
    simp only [Char.isDigit, Bool.and_eq_true, decide_eq_true_eq] at h
    have h1 : 48 ≤ c.toNat := h.1
    have h2 : c.toNat ≤ 57 := h.2
    simp [isWhite]
    omega

variable {nd : Digits}

theorem white_ne {c d : Char} (h : isWhite c = true) (hd : isWhite d = false := by decide) : c ≠ d := by
  rintro rfl
  rw [h] at hd
  cases hd

theorem digit_ne {c d : Char} (h : nd.is c = true) (h1 : d.toNat < 128 := by decide) (h2 : d.isDigit = false := by decide) :
    c ≠ d := by
  rintro rfl
  rw [nd.ascii c h1, h2] at h
  cases h

theorem digit_notWhite {c : Char} (h : nd.is c = true) : isWhite c = false := nd.notWhite c h

theorem white_notDigit {c : Char} (h : isWhite c = true) : nd.is c = false := by
  cases hd : nd.is c with
  | false => rfl
  | true => rw [nd.notWhite c hd] at h; cases h

/-- The captures added by a number with optional second number. -/
def numCaps (a b c : Nat) (d : Str) : Option Str → Caps → Caps
  | none, caps => (a, d) :: caps
  | some e, caps => (b, ',' :: e) :: (c, e) :: (a, d) :: caps

theorem head_append_digit {d : Str} (h : Number nd d) (s : Str) : ∃ c cs, d ++ s = c :: cs ∧ nd.is c = true := by
  obtain ⟨h1, h2⟩ := h
  cases d with
  | nil => exact absurd rfl h1
  | cons c cs => exact ⟨c, cs ++ s, rfl, h2 c (by simp)⟩

theorem spaces_head {w : Str} (h : Spaces w) (s : Str) : ∃ c cs, w ++ s = c :: cs ∧ isWhite c = true := by
  obtain ⟨h1, h2⟩ := h
  cases w with
  | nil => exact absurd rfl h1
  | cons c cs => exact ⟨c, cs ++ s, rfl, h2 c (by simp)⟩

theorem run_numbers {β : Type} (a b c : Nat) (rs : List Rx) (d : Str) (e : Option Str) (w rest : Str) (caps : Caps)
    (k : Str → Caps → Option β) (hd : Number nd d) (he : ∀ x, e = some x → Number nd x) (hw : Spaces w)
    (hr : ∀ x xs, rest = x :: xs → isWhite x = false)
    (hk : ∀ x xs caps, isWhite x = true → run (seqs rs) (x :: xs) caps k = none) :
    run (seqs (grp a (plus nd.is) :: opt (grp b (seq (chr ',') (grp c (plus nd.is)))) :: plus isWhite :: rs))
      (d ++ (comma e ++ (w ++ rest))) caps k = run (seqs rs) rest (numCaps a b c d e caps) k := by
  have hwhite : ∀ caps' : Caps, run (seqs (plus isWhite :: rs)) (w ++ rest) caps' k = run (seqs rs) rest caps' k := by
    intro caps'
    rw [run_seqs_cons]
    exact run_plus_det (fun x xs hx => hk x xs caps' hx) w rest hw.1 hw.2 hr
  have hplusfail : ∀ (x : Char) (xs : Str) (caps' : Caps), nd.is x = true → run (seqs (plus isWhite :: rs)) (x :: xs) caps' k = none := by
    intro x xs caps' hx
    rw [run_seqs_cons]
    refine run_plus_fail _ ?_
    rintro c cs h
    injection h with h1 h2
    subst h1
    exact digit_notWhite hx
  have hopt : ∀ (s : Str) (caps' : Caps), run (seqs (opt (grp b (seq (chr ',') (grp c (plus nd.is)))) :: plus isWhite :: rs)) s caps' k =
      (run (grp b (seq (chr ',') (grp c (plus nd.is)))) s caps' (fun s1 caps1 => run (seqs (plus isWhite :: rs)) s1 caps1 k)).or
        (run (seqs (plus isWhite :: rs)) s caps' k) := fun _ _ => rfl
  have hoptfail : ∀ (x : Char) (xs : Str) (caps' : Caps), nd.is x = true →
      run (seqs (opt (grp b (seq (chr ',') (grp c (plus nd.is)))) :: plus isWhite :: rs)) (x :: xs) caps' k = none := by
    intro x xs caps' hx
    rw [hopt, hplusfail x xs caps' hx, Option.or_none]
    simp only [run]
    refine run_chr_fail _ _ _ _ ?_
    rintro y ys h
    injection h with h1 h2
    subst h1
    exact digit_ne hx
  rw [run_seqs_cons]
  simp only [run]
  rw [run_plus_det (k := fun s' caps' => run (seqs (opt (grp b (seq (chr ',') (grp c (plus nd.is)))) :: plus isWhite :: rs)) s'
    ((a, (d ++ (comma e ++ (w ++ rest))).take ((d ++ (comma e ++ (w ++ rest))).length - s'.length)) :: caps') k)
    (fun x xs hx => hoptfail x xs _ hx) d _ hd.1 hd.2 ?_, take_consumed]
  · cases e with
    | none =>
      simp only [comma, List.nil_append]
      rw [hopt, hwhite]
      have : run (grp b (seq (chr ',') (grp c (plus nd.is)))) (w ++ rest) ((a, d) :: caps)
          (fun s1 caps1 => run (seqs (plus isWhite :: rs)) s1 caps1 k) = none := by
        simp only [run]
        refine run_chr_fail _ _ _ _ ?_
        obtain ⟨y, ys, hy, hyw⟩ := spaces_head hw rest
        rintro z zs h
        rw [hy] at h
        injection h with h1 h2
        subst h1
        exact white_ne hyw
      rw [this, Option.none_or]
      rfl
    | some e =>
      have hen := he e rfl
      rw [hopt]
      have h1 : run (grp b (seq (chr ',') (grp c (plus nd.is)))) (comma (some e) ++ (w ++ rest)) ((a, d) :: caps)
          (fun s1 caps1 => run (seqs (plus isWhite :: rs)) s1 caps1 k) =
          run (seqs rs) rest (numCaps a b c d (some e) caps) k := by
        simp only [run, comma, List.cons_append]
        rw [run_chr]
        rw [run_plus_det (p := nd.is) (w := e) (rest := w ++ rest) ?_ hen.1 hen.2 ?_]
        · rw [hwhite, take_consumed]
          congr 2
          simp only [Prod.mk.injEq, true_and]
          exact take_consumed (',' :: e) (w ++ rest)
        · intro x xs hx
          exact hplusfail x xs _ hx
        · obtain ⟨y, ys, hy, hyw⟩ := spaces_head hw rest
          rintro z zs h
          rw [hy] at h
          injection h with h1 h2
          subst h1
          exact white_notDigit hyw
      rw [h1]
      have h2 : run (seqs (plus isWhite :: rs)) (comma (some e) ++ (w ++ rest)) ((a, d) :: caps) k = none := by
        rw [run_seqs_cons]
        refine run_plus_fail _ ?_
        rintro z zs h
        simp only [comma, List.cons_append] at h
        injection h with h1 h2
        subst h1
        decide
      rw [h2, Option.or_none]
  · obtain ⟨y, ys, hy, hyw⟩ := spaces_head hw rest
    rintro z zs h
    cases e with
    | none =>
      simp only [comma, List.nil_append] at h
      rw [hy] at h
      injection h with h1 h2
      subst h1
      exact white_notDigit hyw
    | some e =>
      simp only [comma, List.cons_append] at h
      injection h with h1 h2
      subst h1
      rw [nd.ascii ',' (by decide)]
      decide

/-- The end of a header line. -/
def tailRx : List Rx := [star isWhite, grp 7 (star dot), opt (grp 8 (chr '\n'))]

theorem lang_tail (tail : Str) : Lang (seqs tailRx) tail ↔ Rest tail := by
  unfold tailRx
  constructor
  · rintro ⟨w, v, rfl, hw, x, v', rfl, hx, e, z, rfl, he, hz⟩
    simp only [seqs, Lang] at hz
    subst hz
    refine ⟨w, x, e, by simp, hw, ?_, ?_⟩
    · intro hn
      have := hx _ hn
      simp [dot] at this
    · rcases he with he | he
      · exact .inl he
      · exact .inr ((lang_chr _ _).1 he)
  · rintro ⟨w, x, e, rfl, hw, hx, he⟩
    refine ⟨w, x ++ e, rfl, hw, x, e, rfl, ?_, e, [], by simp, ?_, rfl⟩
    · intro c hc
      simp only [dot, bne_iff_ne, ne_eq]
      rintro rfl
      exact hx hc
    · rcases he with rfl | rfl
      · exact .inl rfl
      · exact .inr ((lang_chr _ _).2 rfl)

theorem headerRx_eq : clumpHeaderRx nd = seqs (lit ['@', '@'] :: plus isWhite :: chr '-' :: grp 1 (plus nd.is) ::
    opt (grp 2 (seq (chr ',') (grp 3 (plus nd.is)))) :: plus isWhite :: chr '+' :: grp 4 (plus nd.is) ::
    opt (grp 5 (seq (chr ',') (grp 6 (plus nd.is)))) :: plus isWhite :: lit ['@', '@'] :: tailRx) := rfl

theorem run_chr_white {β : Type} {c : Char} (hc : isWhite c = false) (rs : List Rx) (x : Char) (xs : Str) (caps : Caps)
    (k : Str → Caps → Option β) (hx : isWhite x = true) : run (seqs (chr c :: rs)) (x :: xs) caps k = none := by
  rw [run_seqs_cons]
  refine run_chr_fail _ _ _ _ ?_
  rintro y ys h
  injection h with h1 h2
  subst h1
  exact white_ne hx hc

theorem run_lit_white {β : Type} {c : Char} (hc : isWhite c = false) (l : Str) (rs : List Rx) (x : Char) (xs : Str)
    (caps : Caps) (k : Str → Caps → Option β) (hx : isWhite x = true) :
    run (seqs (lit (c :: l) :: rs)) (x :: xs) caps k = none := by
  rw [run_seqs_cons]
  unfold lit
  simp only [run]
  refine run_chr_fail _ _ _ _ ?_
  rintro y ys h
  injection h with h1 h2
  subst h1
  exact white_ne hx hc

theorem captures_header {d1 d2 : Str} {e1 e2 : Option Str} {line : Str} (h : HeaderLine nd d1 e1 d2 e2 line) :
    ∃ caps, captures (clumpHeaderRx nd) line = some caps ∧ Caps.get caps 1 = some d1 ∧ Caps.get caps 3 = e1 ∧
      Caps.get caps 4 = some d2 ∧ Caps.get caps 6 = e2 := by
  obtain ⟨w1, w2, w3, tail, rfl, hw1, hw2, hw3, hd1, hd2, he1, he2, ht⟩ := h
  unfold captures
  rw [headerRx_eq, run_seqs_cons, run_lit, run_seqs_cons,
    run_plus_det (fun x xs hx => run_chr_white (by decide) _ x xs _ _ hx) w1 _ hw1.1 hw1.2 (by
      rintro c cs h; injection h with h1 h2; subst h1; decide),
    run_seqs_cons, run_chr,
    run_numbers 1 2 3 _ d1 e1 w2 _ _ _ hd1 he1 hw2 (by rintro c cs h; injection h with h1 h2; subst h1; decide)
      (fun x xs caps hx => run_chr_white (by decide) _ x xs _ _ hx),
    run_seqs_cons, run_chr,
    run_numbers 4 5 6 _ d2 e2 w3 _ _ _ hd2 he2 hw3 (by
      rintro c cs h; simp only [List.cons_append] at h; injection h with h1 h2; subst h1; decide)
      (fun x xs caps hx => run_lit_white (by decide) _ _ x xs _ _ hx),
    run_seqs_cons, run_lit]
  have hsome := run_isSome (rest := []) (caps := numCaps 4 5 6 d2 e2 (numCaps 1 2 3 d1 e1 []))
    (k := fun s caps => if s.isEmpty then some caps else none) (seqs tailRx) ((lang_tail tail).2 ht) (fun _ => rfl)
  rw [List.append_nil] at hsome
  obtain ⟨caps, hc⟩ := Option.isSome_iff_exists.1 hsome
  refine ⟨caps, hc, ?_⟩
  obtain ⟨w, rest, caps', -, -, hk, hg⟩ := run_some _ hc
  have hcc : caps' = caps := by
    split at hk
    · injection hk
    · cases hk
  subst hcc
  have e : ∀ n, n ∉ [7, 8] → Caps.get caps' n = Caps.get (numCaps 4 5 6 d2 e2 (numCaps 1 2 3 d1 e1 [])) n := by
    intro n hn
    refine hg n ?_
    simpa [tailRx, seqs, groups, chr] using hn
  rw [e 1 (by decide), e 3 (by decide), e 4 (by decide), e 6 (by decide)]
  cases e1 <;> cases e2 <;> simp [numCaps, Caps.get, List.lookup]

theorem lang_optNum (s : Str) (b c : Nat) (h : Lang (opt (grp b (seq (chr ',') (grp c (plus nd.is))))) s) :
    ∃ e, s = comma e ∧ ∀ x, e = some x → Number nd x := by
  rcases h with rfl | ⟨u, v, rfl, h1, h2⟩
  · exact ⟨none, rfl, by simp⟩
  · rw [lang_chr] at h1
    refine ⟨some v, by simp [h1, comma], ?_⟩
    rintro x h
    injection h with h
    subst h
    exact (lang_plus _ _).1 h2

theorem header_of_captures {line : Str} {caps : Caps} (h : captures (clumpHeaderRx nd) line = some caps) :
    ∃ d1 e1 d2 e2, HeaderLine nd d1 e1 d2 e2 line := by
  have hl := (captures_isSome_iff (clumpHeaderRx nd) line).1 (by rw [h]; rfl)
  rw [headerRx_eq] at hl
  obtain ⟨a1, r1, rfl, h1, w1, r2, rfl, h2, a2, r3, rfl, h3, d1, r4, rfl, h4, o1, r5, rfl, h5, w2, r6, rfl, h6, a3, r7,
    rfl, h7, d2, r8, rfl, h8, o2, r9, rfl, h9, w3, r10, rfl, h10, a4, tail, rfl, h11, ht⟩ := hl
  rw [lang_lit] at h1 h11
  rw [lang_chr] at h3 h7
  subst h1 h11 h3 h7
  obtain ⟨e1, rfl, he1⟩ := lang_optNum _ _ _ h5
  obtain ⟨e2, rfl, he2⟩ := lang_optNum _ _ _ h9
  refine ⟨d1, e1, d2, e2, w1, w2, w3, tail, by simp, (lang_plus _ _).1 h2, (lang_plus _ _).1 h6, (lang_plus _ _).1 h10,
    (lang_plus _ _).1 h4, (lang_plus _ _).1 h8, he1, he2, (lang_tail tail).1 ht⟩

/-! ## Numbers -/

theorem parseUsize_eq_some {d : Str} {n : Nat} (hd : ∀ c cs, d = c :: cs → c ≠ '+') :
    parseUsize d = some n ↔ Numeral d n ∧ n < 2 ^ 64 := by
  have e : stripPlus d = d := by
    cases d with
    | nil => rfl
    | cons c cs => simp [stripPlus, hd c cs rfl]
  unfold parseUsize
  rw [e]
  unfold Numeral
  split
  · rename_i h
    obtain ⟨h1, h2⟩ := h
    rw [List.all_eq_true] at h2
    split
    · rename_i hlt
      constructor
      · intro h
        injection h with h
        subst h
        exact ⟨⟨h1, h2, rfl⟩, hlt⟩
      · rintro ⟨⟨-, -, h⟩, -⟩
        rw [h]
    · rename_i hlt
      constructor
      · intro h; cases h
      · rintro ⟨⟨-, -, h⟩, h3⟩
        rw [h] at hlt
        exact absurd h3 hlt
  · rename_i h
    constructor
    · intro h; cases h
    · rintro ⟨⟨h1, h2, -⟩, -⟩
      exact absurd ⟨h1, List.all_eq_true.2 h2⟩ h

theorem Number.no_plus {d : Str} (h : Number nd d) : ∀ c cs, d = c :: cs → c ≠ '+' := by
  rintro c cs rfl
  exact digit_ne (h.2 c (by simp))

theorem parseNumber_cases (d : Str) (k : Nat) :
    (∃ n, parseUsize d = some n ∧ parseNumber d k = .ok n) ∨
      (parseUsize d = none ∧ parseNumber d k = .error (.parseNumberError k)) := by
  unfold parseNumber
  cases h : parseUsize d with
  | none => exact .inr ⟨rfl, rfl⟩
  | some n => exact .inl ⟨n, rfl, rfl⟩

theorem side_cases {caps : Caps} {a b k : Nat} {d : Str} {e : Option Str} (h1 : Caps.get caps a = some d)
    (h2 : Caps.get caps b = e) (hd : Number nd d) (he : ∀ x, e = some x → Number nd x) :
    (∃ s, startAndLengthFromCaptures caps a b k = .ok s ∧ SideMeans d e s) ∨
    (startAndLengthFromCaptures caps a b k = .error (.parseNumberError k) ∧ ∀ s, ¬ SideMeans d e s) := by
  unfold startAndLengthFromCaptures
  rw [h1, h2]
  simp only
  rcases parseNumber_cases d k with ⟨n, hn, hp⟩ | ⟨hn, hp⟩
  · rw [hp]
    rw [parseUsize_eq_some hd.no_plus] at hn
    cases e with
    | none =>
      exact .inl ⟨⟨n, 1⟩, rfl, hn.1, hn.2, by simp, .inl ⟨rfl, rfl⟩⟩
    | some x =>
      have hx := he x rfl
      rcases parseNumber_cases x k with ⟨m, hm, hq⟩ | ⟨hm, hq⟩
      · rw [parseUsize_eq_some hx.no_plus] at hm
        refine .inl ⟨⟨n, m⟩, ?_, hn.1, hn.2, hm.2, .inr ⟨x, rfl, hm.1⟩⟩
        show (do let length ← parseNumber x k; return (⟨n, length⟩ : StartAndLength)) = _
        rw [hq]
        rfl
      · refine .inr ⟨?_, ?_⟩
        · show (do let length ← parseNumber x k; return (⟨n, length⟩ : StartAndLength)) = _
          rw [hq]
          rfl
        · rintro s ⟨-, -, h4, h5⟩
          rcases h5 with ⟨h5, -⟩ | ⟨y, h5, h6⟩
          · cases h5
          · injection h5 with h5
            subst h5
            rw [(parseUsize_eq_some hx.no_plus).2 ⟨h6, h4⟩] at hm
            cases hm
  · rw [hp]
    refine .inr ⟨rfl, ?_⟩
    rintro s ⟨h3, h4, -⟩
    rw [(parseUsize_eq_some hd.no_plus).2 ⟨h3, h4⟩] at hn
    cases hn

theorem SideMeans.unique {d : Str} {e : Option Str} {s t : StartAndLength} (hs : SideMeans d e s) (ht : SideMeans d e t) :
    s = t := by
  obtain ⟨⟨-, -, a1⟩, -, -, a2⟩ := hs
  obtain ⟨⟨-, -, b1⟩, -, -, b2⟩ := ht
  have h1 : s.start = t.start := a1.symm.trans b1
  have h2 : s.length = t.length := by
    rcases a2 with ⟨a2, a3⟩ | ⟨x, a2, -, -, a3⟩ <;> rcases b2 with ⟨b2, b3⟩ | ⟨y, b2, -, -, b3⟩
    · omega
    · rw [a2] at b2; cases b2
    · rw [a2] at b2; cases b2
    · rw [a2] at b2; injection b2 with b2; subst b2; omega
  cases s; cases t
  simp_all

/-- What `starts_and_lengths` makes of a header line. -/
theorem startsAndLengths_header {d1 d2 : Str} {e1 e2 : Option Str} {line : Str} (h : HeaderLine nd d1 e1 d2 e2 line)
    (k : Nat) :
    (∃ s, startsAndLengths nd line k = .ok (some s) ∧ SideMeans d1 e1 s.before ∧ SideMeans d2 e2 s.after) ∨
    (startsAndLengths nd line k = .error (.parseNumberError k) ∧
      ∀ s : StartsAndLengths, ¬ (SideMeans d1 e1 s.before ∧ SideMeans d2 e2 s.after)) := by
  obtain ⟨caps, hc, g1, g3, g4, g6⟩ := captures_header h
  obtain ⟨-, -, -, -, -, -, -, -, hd1, hd2, he1, he2, -⟩ := h
  unfold startsAndLengths
  rw [hc]
  simp only
  rcases side_cases (k := k) g1 g3 hd1 he1 with ⟨s, hs, ms⟩ | ⟨hs, ms⟩
  · rcases side_cases (k := k) g4 g6 hd2 he2 with ⟨t, ht, mt⟩ | ⟨ht, mt⟩
    · refine .inl ⟨⟨s, t⟩, ?_, ms, mt⟩
      rw [hs, ht]
      rfl
    · refine .inr ⟨?_, fun s h => mt _ h.2⟩
      rw [hs, ht]
      rfl
  · refine .inr ⟨?_, fun s h => ms _ h.1⟩
    rw [hs]
    rfl

end PwDiff
