import Verif.Proofs.UnifiedHeader

/-! # The file header patterns -/

namespace PwDiff

open Rx

variable {nd : Digits}

theorem digit_notUpper {c : Char} (h : nd.is c = true) : upper c = false := by
  cases hu : upper c with
  | false => rfl
  | true =>
    simp only [upper, Bool.and_eq_true, decide_eq_true_eq] at hu
    have h1 : 65 ≤ c.toNat := hu.1
    have h2 : c.toNat ≤ 90 := hu.2
    rw [nd.ascii c (by omega)] at h
    simp only [Char.isDigit, Bool.and_eq_true, decide_eq_true_eq] at h
    have h3 : c.toNat ≤ 57 := h.2
    omega

/-- `[-+]`. -/
theorem run_sign {β : Type} (c : Char) (s : Str) (hc : c = '-' ∨ c = '+') (caps : Caps) (k : Str → Caps → Option β) :
    run (cls fun c => c == '-' || c == '+') (c :: s) caps k = k s caps := by
  rcases hc with rfl | rfl <;> simp [run]

theorem run_isoStamp {β : Type} {t : Str} (h : IsoStamp nd t) (s : Str) (caps : Caps) (k : Str → Caps → Option β) :
    ∃ caps', (∀ n, n ≠ 5 → Caps.get caps' n = Caps.get caps n) ∧ run (timestampRx nd) (t ++ s) caps k = k s caps' := by
  obtain ⟨y, m, d, c, f, z, rfl, hy, hm, hd, ⟨ch, cm, cs, rfl, hch, hcm, hcs⟩, hf, ⟨sg, zd, rfl, hsg, hzd⟩⟩ := h
  unfold timestampRx
  simp only [List.append_assoc, List.cons_append]
  rw [run_seqs_cons, run_rep 4 _ y _ hy.1 hy.2, run_seqs_cons, run_chr, run_seqs_cons, run_rep 2 _ m _ hm.1 hm.2,
    run_seqs_cons, run_chr, run_seqs_cons, run_rep 2 _ d _ hd.1 hd.2, run_seqs_cons, run_chr, run_seqs_cons,
    run_rep 2 _ ch _ hch.1 hch.2, run_seqs_cons, run_chr, run_seqs_cons, run_rep 2 _ cm _ hcm.1 hcm.2, run_seqs_cons,
    run_chr, run_seqs_cons, run_rep 2 _ cs _ hcs.1 hcs.2, run_seqs_cons]
  have key : ∀ caps' : Caps, run (seqs [chr ' ', cls fun c => c == '-' || c == '+', rep 4 nd.is]) (' ' :: sg :: (zd ++ s)) caps' k =
      k s caps' := by
    intro caps'
    rw [run_seqs_cons, run_chr, run_seqs_cons, run_sign _ _ hsg, run_seqs_cons, run_rep 4 _ zd _ hzd.1 hzd.2]
    rfl
  rcases hf with rfl | ⟨n, rfl, hn⟩
  · refine ⟨caps, fun _ _ => rfl, ?_⟩
    simp only [List.nil_append]
    unfold run
    dsimp only
    rw [key]
    have : run (grp 5 (seq (chr '.') (rep 9 nd.is))) (' ' :: sg :: (zd ++ s)) caps
        (fun s' caps' => run (seqs [chr ' ', cls fun c => c == '-' || c == '+', rep 4 nd.is]) s' caps' k) = none := by
      simp only [run]
      refine run_chr_fail _ _ _ _ ?_
      rintro x xs h
      injection h with h1 h2
      subst h1
      decide
    rw [this, Option.none_or]
  · refine ⟨(5, '.' :: n) :: caps, ?_, ?_⟩
    · intro m hm
      simp [Caps.get, List.lookup, beq_false_of_ne hm]
    · simp only [List.cons_append]
      unfold run
      dsimp only
      have h1 : run (grp 5 (seq (chr '.') (rep 9 nd.is))) ('.' :: (n ++ ' ' :: sg :: (zd ++ s))) caps
          (fun s' caps' => run (seqs [chr ' ', cls fun c => c == '-' || c == '+', rep 4 nd.is]) s' caps' k) =
          k s ((5, '.' :: n) :: caps) := by
        simp only [run]
        rw [run_chr, run_rep 9 _ n _ hn.1 hn.2, key, ← List.cons_append, take_consumed]
      have h2 : run (seqs [chr ' ', cls fun c => c == '-' || c == '+', rep 4 nd.is]) ('.' :: (n ++ ' ' :: sg :: (zd ++ s))) caps k
          = none := by
        rw [run_seqs_cons]
        refine run_chr_fail _ _ _ _ ?_
        rintro x xs h
        injection h with h1 h2
        subst h1
        decide
      rw [h1, h2, Option.or_none]

theorem run_shortName {β : Type} {t : Str} (h : ShortName t) (rs : List Rx) (s : Str) (caps : Caps) (k : Str → Caps → Option β) :
    run (seqs (cls upper :: rep 2 lower :: rs)) (t ++ s) caps k = run (seqs rs) s caps k := by
  obtain ⟨a, b, c, rfl, ha, hb, hc⟩ := h
  rw [run_seqs_cons]
  simp only [run, List.cons_append, List.nil_append]
  rw [if_pos (by simp [upper, ha])]
  exact run_rep 2 _ [b, c] s rfl (by simp [lower, hb, hc]) caps _

theorem run_altStamp {β : Type} {t : Str} (h : AltStamp nd t) (s : Str) (caps : Caps) (k : Str → Caps → Option β) :
    run (altTimestampRx nd) (t ++ s) caps k = k s caps := by
  obtain ⟨a, b, d, c, y, z, rfl, ha, hb, hd, ⟨ch, cm, cs, rfl, hch, hcm, hcs⟩, hy, ⟨sg, zd, rfl, hsg, hzd⟩⟩ := h
  unfold altTimestampRx
  simp only [List.append_assoc, List.cons_append]
  rw [run_shortName ha, run_seqs_cons, run_chr, run_shortName hb, run_seqs_cons, run_chr, run_seqs_cons,
    run_rep 2 _ d _ hd.1 hd.2, run_seqs_cons, run_chr, run_seqs_cons,
    run_rep 2 _ ch _ hch.1 hch.2, run_seqs_cons, run_chr, run_seqs_cons, run_rep 2 _ cm _ hcm.1 hcm.2, run_seqs_cons,
    run_chr, run_seqs_cons, run_rep 2 _ cs _ hcs.1 hcs.2, run_seqs_cons, run_chr, run_seqs_cons,
    run_rep 4 _ y _ hy.1 hy.2, run_seqs_cons, run_chr, run_seqs_cons, run_sign _ _ hsg, run_seqs_cons,
    run_rep 4 _ zd _ hzd.1 hzd.2]
  rfl

theorem run_iso_upper {β : Type} {c : Char} (hc : upper c = true) (s : Str) (caps : Caps) (k : Str → Caps → Option β) :
    run (timestampRx nd) (c :: s) caps k = none := by
  have : nd.is c = false := by
    cases h : nd.is c with
    | false => rfl
    | true => rw [digit_notUpper h] at hc; cases hc
  simp [timestampRx, run, rep, seqs, this]

theorem run_alt_digit {β : Type} {c : Char} (hc : nd.is c = true) (s : Str) (caps : Caps) (k : Str → Caps → Option β) :
    run (altTimestampRx nd) (c :: s) caps k = none := by
  simp [altTimestampRx, run, seqs, digit_notUpper hc]

theorem run_stamp {β : Type} {t : Str} (h : Stamp nd t) (s : Str) (caps : Caps) (k : Str → Caps → Option β) :
    ∃ caps', (∀ n, n ≠ 5 → Caps.get caps' n = Caps.get caps n) ∧
      run (alt (timestampRx nd) (altTimestampRx nd)) (t ++ s) caps k = k s caps' := by
  rcases h with h | h
  · obtain ⟨caps', h1, h2⟩ := run_isoStamp h s caps k
    refine ⟨caps', h1, ?_⟩
    unfold run
    rw [h2]
    obtain ⟨y, m, d, c, f, z, rfl, hy, -⟩ := h
    obtain ⟨x, xs, rfl⟩ : ∃ x xs, y = x :: xs := by
      cases y with
      | nil => simp [DigitsN] at hy
      | cons x xs => exact ⟨x, xs, rfl⟩
    simp only [List.cons_append]
    rw [run_alt_digit (hy.2 x (by simp)), Option.or_none]
  · refine ⟨caps, fun _ _ => rfl, ?_⟩
    unfold run
    rw [run_altStamp h]
    obtain ⟨a, b, d, c, y, z, rfl, ⟨x1, x2, x3, rfl, hx, -⟩, -⟩ := h
    simp only [List.cons_append]
    rw [run_iso_upper (by simp [upper, hx]), Option.none_or]

/-- The strings of the time stamp patterns are the time stamps. -/
theorem lang_sign (w : Str) (h : Lang (cls fun c => c == '-' || c == '+') w) : ∃ c, w = [c] ∧ (c = '-' ∨ c = '+') := by
  obtain ⟨c, rfl, hc⟩ := h
  exact ⟨c, rfl, by simpa using hc⟩

theorem lang_isoStamp {t : Str} (h : Lang (timestampRx nd) t) : IsoStamp nd t := by
  unfold timestampRx at h
  obtain ⟨y, r1, rfl, h1, x1, r2, rfl, h2, m, r3, rfl, h3, x2, r4, rfl, h4, d, r5, rfl, h5, x3, r6, rfl, h6, ch, r7, rfl, h7,
    x4, r8, rfl, h8, cm, r9, rfl, h9, x5, r10, rfl, h10, cs, r11, rfl, h11, f, r12, rfl, h12, x6, r13, rfl, h13, sg, r14, rfl,
    h14, zd, r15, rfl, h15, h16⟩ := h
  rw [lang_rep] at h1 h3 h5 h7 h9 h11 h15
  rw [lang_chr] at h2 h4 h6 h8 h10 h13
  obtain ⟨c, rfl, hc⟩ := lang_sign _ h14
  simp only [seqs, Lang] at h16
  subst h2 h4 h6 h8 h10 h13 h16
  refine ⟨y, m, d, ch ++ (':' :: (cm ++ (':' :: cs))), f, c :: zd, by simp, h1, h3, h5, ⟨ch, cm, cs, rfl, h7, h9, h11⟩, ?_,
    ⟨c, zd, rfl, hc, h15⟩⟩
  rcases h12 with rfl | ⟨u, v, rfl, h1, h2⟩
  · exact .inl rfl
  · rw [lang_chr] at h1
    rw [lang_rep] at h2
    exact .inr ⟨v, by simp [h1], h2⟩

theorem lang_shortName {u v : Str} (h1 : Lang (cls upper) u) (h2 : Lang (rep 2 lower) v) : ShortName (u ++ v) := by
  obtain ⟨c, rfl, hc⟩ := h1
  rw [lang_rep] at h2
  obtain ⟨h2, h3⟩ := h2
  match v, h2 with
  | [a, b], _ =>
    refine ⟨c, a, b, rfl, by simpa [upper] using hc, by simpa [lower] using h3 a (by simp), by simpa [lower] using h3 b (by simp)⟩

theorem lang_altStamp {t : Str} (h : Lang (altTimestampRx nd) t) : AltStamp nd t := by
  unfold altTimestampRx at h
  obtain ⟨a1, r1, rfl, h1, a2, r2, rfl, h2, x1, r3, rfl, h3, b1, r4, rfl, h4, b2, r5, rfl, h5, x2, r6, rfl, h6, d, r7, rfl, h7,
    x3, r8, rfl, h8, ch, r9, rfl, h9, x4, r10, rfl, h10, cm, r11, rfl, h11, x5, r12, rfl, h12, cs, r13, rfl, h13, x6, r14, rfl,
    h14, y, r15, rfl, h15, x7, r16, rfl, h16, sg, r17, rfl, h17, zd, r18, rfl, h18, h19⟩ := h
  rw [lang_rep] at h7 h9 h11 h13 h15 h18
  rw [lang_chr] at h3 h6 h8 h10 h12 h14 h16
  obtain ⟨c, rfl, hc⟩ := lang_sign _ h17
  simp only [seqs, Lang] at h19
  subst h3 h6 h8 h10 h12 h14 h16 h19
  exact ⟨a1 ++ a2, b1 ++ b2, d, ch ++ (':' :: (cm ++ (':' :: cs))), y, c :: zd, by simp, lang_shortName h1 h2,
    lang_shortName h4 h5, h7, ⟨ch, cm, cs, rfl, h9, h11, h13⟩, h15, ⟨c, zd, rfl, hc, h18⟩⟩

theorem newline_notDigit : nd.is '\n' = false := by rw [nd.ascii _ (by decide)]; decide

theorem DigitsN.no_newline {n : Nat} {d : Str} (h : DigitsN nd n d) : '\n' ∉ d := by
  intro hn
  have := h.2 _ hn
  rw [newline_notDigit] at this
  cases this

theorem Clock.no_newline {d : Str} (h : Clock nd d) : '\n' ∉ d := by
  obtain ⟨a, b, c, rfl, ha, hb, hc⟩ := h
  simp [ha.no_newline, hb.no_newline, hc.no_newline]

theorem Zone.no_newline {d : Str} (h : Zone nd d) : '\n' ∉ d := by
  obtain ⟨a, b, rfl, ha, hb⟩ := h
  rcases ha with rfl | rfl <;> simp [hb.no_newline]

theorem ShortName.no_newline {d : Str} (h : ShortName d) : '\n' ∉ d := by
  obtain ⟨a, b, c, rfl, ha, hb, hc⟩ := h
  intro hn
  simp only [List.mem_cons, List.not_mem_nil, or_false] at hn
  rcases hn with rfl | rfl | rfl
  · revert ha; decide
  · revert hb; decide
  · revert hc; decide

theorem Stamp.no_newline {t : Str} (h : Stamp nd t) : '\n' ∉ t := by
  rcases h with ⟨y, m, d, c, f, z, rfl, hy, hm, hd, hc, hf, hz⟩ | ⟨a, b, d, c, y, z, rfl, ha, hb, hd, hc, hy, hz⟩
  · have hf' : '\n' ∉ f := by
      rcases hf with rfl | ⟨n, rfl, hn⟩
      · simp
      · simp [hn.no_newline]
    simp [hy.no_newline, hm.no_newline, hd.no_newline, hc.no_newline, hf', hz.no_newline]
  · simp [ha.no_newline, hb.no_newline, hd.no_newline, hc.no_newline, hy.no_newline, hz.no_newline]

/-- What follows the path and the white space. -/
def afterPathRx (nd : Digits) : List Rx :=
  [opt (grp 4 (alt (timestampRx nd) (altTimestampRx nd))), grp 6 (star dot), opt (grp 7 (chr '\n'))]

/-- The final continuation. -/
def done : Str → Caps → Option Caps := fun s caps => if s.isEmpty then some caps else none

theorem prefix_of_line {t r x e : Str} (h : t ++ r = x ++ e) (ht : '\n' ∉ t) (he : e = [] ∨ e = ['\n']) :
    ∃ y, x = t ++ y ∧ r = y ++ e := by
  rcases he with rfl | rfl
  · exact ⟨r, by simpa using h.symm, by simp⟩
  · rcases List.append_eq_append_iff.1 h with ⟨a, h1, h2⟩ | ⟨a, h1, h2⟩
    · exact ⟨a, h1, h2⟩
    · cases a with
      | nil => exact ⟨[], by simpa using h1.symm, by simpa using h2.symm⟩
      | cons c a =>
        simp only [List.cons_append] at h2
        injection h2 with h2 h3
        subst h2
        exact absurd (by rw [h1]; simp) ht

theorem run_rest (x e : Str) (hx : '\n' ∉ x) (he : e = [] ∨ e = ['\n']) (caps : Caps) :
    ∃ caps', run (seqs [grp 6 (star dot), opt (grp 7 (chr '\n'))]) (x ++ e) caps done = some caps' ∧
      ∀ n, n ≠ 6 → n ≠ 7 → Caps.get caps' n = Caps.get caps n := by
  have hl : Lang (seqs [grp 6 (star dot), opt (grp 7 (chr '\n'))]) (x ++ e) := by
    refine ⟨x, e, rfl, ?_, e, [], by simp, ?_, rfl⟩
    · intro c hc
      simp only [dot, bne_iff_ne, ne_eq]
      rintro rfl
      exact hx hc
    · rcases he with rfl | rfl
      · exact .inl rfl
      · exact .inr ((lang_chr _ _).2 rfl)
  have hsome := run_isSome (rest := []) (caps := caps) (k := done) _ hl (fun _ => rfl)
  rw [List.append_nil] at hsome
  obtain ⟨caps', hc⟩ := Option.isSome_iff_exists.1 hsome
  refine ⟨caps', hc, ?_⟩
  obtain ⟨w, rest, caps'', -, -, hk, hg⟩ := run_some _ hc
  have hcc : caps'' = caps' := by
    unfold done at hk
    split at hk
    · injection hk
    · cases hk
  subst hcc
  intro n h6 h7
  exact hg n (by simp [seqs, groups, chr, h6, h7])

/-- After the path: the time stamp, if there is one, is captured; nothing else is touched. -/
theorem run_afterPath (x e : Str) (hx : '\n' ∉ x) (he : e = [] ∨ e = ['\n']) (caps : Caps)
    (h4 : Caps.get caps 4 = none) :
    ∃ caps', run (seqs (afterPathRx nd)) (x ++ e) caps done = some caps' ∧
      (∀ n, n < 4 → Caps.get caps' n = Caps.get caps n) ∧
      (∀ t y, x = t ++ y → Stamp nd t → Caps.get caps' 4 = some t) ∧
      ((∀ t y, x = t ++ y → ¬ Stamp nd t) → Caps.get caps' 4 = none) := by
  have hopt : ∀ s, run (seqs (afterPathRx nd)) s caps done =
      (run (grp 4 (alt (timestampRx nd) (altTimestampRx nd))) s caps
        fun s' caps' => run (seqs [grp 6 (star dot), opt (grp 7 (chr '\n'))]) s' caps' done).or
      (run (seqs [grp 6 (star dot), opt (grp 7 (chr '\n'))]) s caps done) := fun _ => rfl
  have hstamp : ∀ t y, x = t ++ y → Stamp nd t → ∃ caps', run (seqs (afterPathRx nd)) (x ++ e) caps done = some caps' ∧
      (∀ n, n < 4 → Caps.get caps' n = Caps.get caps n) ∧ Caps.get caps' 4 = some t := by
    rintro t y rfl ht
    rw [hopt]
    unfold run
    rw [List.append_assoc]
    obtain ⟨caps1, g1, e1⟩ := run_stamp ht (y ++ e) caps (fun s' caps' =>
      run (seqs [grp 6 (star dot), opt (grp 7 (chr '\n'))]) s'
        ((4, (t ++ (y ++ e)).take ((t ++ (y ++ e)).length - s'.length)) :: caps') done)
    rw [e1, take_consumed]
    obtain ⟨caps2, e2, g2⟩ := run_rest y e (fun h => hx (by simp [h])) he ((4, t) :: caps1)
    rw [e2, Option.some_or]
    refine ⟨caps2, rfl, ?_, ?_⟩
    · intro n hn
      rw [g2 n (by omega) (by omega), ← g1 n (by omega)]
      have : (n == 4) = false := by simp; omega
      simp [Caps.get, List.lookup, this]
    · rw [g2 4 (by decide) (by decide)]
      simp [Caps.get, List.lookup]
  by_cases hs : ∃ t y, x = t ++ y ∧ Stamp nd t
  · obtain ⟨t, y, hxy, ht⟩ := hs
    obtain ⟨caps', e1, g1, g2⟩ := hstamp t y hxy ht
    refine ⟨caps', e1, g1, ?_, fun h => absurd ht (h t y hxy)⟩
    intro t' y' hxy' ht'
    obtain ⟨caps'', e3, -, g3⟩ := hstamp t' y' hxy' ht'
    rw [e1] at e3
    injection e3 with e3
    rw [e3, g3]
  · have hno : ∀ t y, x = t ++ y → ¬ Stamp nd t := fun t y h1 h2 => hs ⟨t, y, h1, h2⟩
    have hnone : run (grp 4 (alt (timestampRx nd) (altTimestampRx nd))) (x ++ e) caps
        (fun s' caps' => run (seqs [grp 6 (star dot), opt (grp 7 (chr '\n'))]) s' caps' done) = none := by
      cases hr : run (grp 4 (alt (timestampRx nd) (altTimestampRx nd))) (x ++ e) caps
        (fun s' caps' => run (seqs [grp 6 (star dot), opt (grp 7 (chr '\n'))]) s' caps' done) with
      | none => rfl
      | some b =>
        obtain ⟨t, rest, -, ht, hl, -, -⟩ := run_some _ hr
        have hst : Stamp nd t := by
          rcases hl with hl | hl
          · exact .inl (lang_isoStamp hl)
          · exact .inr (lang_altStamp hl)
        obtain ⟨y, hy, -⟩ := prefix_of_line ht.symm hst.no_newline he
        exact absurd hst (hno t y hy)
    obtain ⟨caps2, e2, g2⟩ := run_rest x e hx he caps
    rw [hopt, hnone, Option.none_or]
    exact ⟨caps2, e2, fun n hn => g2 n (by omega) (by omega), fun t y h1 h2 => absurd h2 (hno t y h1),
      fun _ => by rw [g2 4 (by decide) (by decide), h4]⟩

/-- White space before a rest that is accepted and does not begin with white space. -/
theorem run_spaces {rs : List Rx} {k : Str → Caps → Option Caps} {caps caps' : Caps} {w x e : Str} (hw : Spaces w)
    (hx : ∀ c cs, x = c :: cs → isWhite c = false) (he : e = [] ∨ e = ['\n'])
    (h1 : run (seqs rs) (if x = [] then [] else x ++ e) caps k = some caps') :
    run (seqs (plus isWhite :: rs)) (w ++ (x ++ e)) caps k = some caps' := by
  rw [run_seqs_cons]
  by_cases hxe : x = []
  · subst hxe
    rw [if_pos rfl] at h1
    have := run_plus_greedy (p := isWhite) (caps := caps) (k := fun s' caps' => run (seqs rs) s' caps' k) (b := caps')
      (w ++ e) [] (by simp [hw.1]) (by
        intro c hc
        rw [List.mem_append] at hc
        rcases hc with hc | hc
        · exact hw.2 c hc
        · rcases he with rfl | rfl
          · simp at hc
          · simp only [List.mem_singleton] at hc
            subst hc
            decide) (by simp) h1
    simpa using this
  · rw [if_neg hxe] at h1
    refine run_plus_greedy w (x ++ e) hw.1 hw.2 ?_ h1
    intro c cs h
    cases x with
    | nil => exact absurd rfl hxe
    | cons y ys =>
      injection h with h1 h2
      subst h1
      exact hx _ _ rfl

theorem run_quoted {β : Type} (path s : Str) (caps : Caps) (k : Str → Caps → Option β) (h1 : path ≠ []) (h2 : '"' ∉ path) :
    run (seqs [chr '"', grp 2 (plus fun c => c != '"'), chr '"']) ('"' :: (path ++ ('"' :: s))) caps k =
      k s ((2, path) :: caps) := by
  rw [run_seqs_cons, run_chr, run_seqs_cons]
  unfold run
  rw [run_plus_det (w := path) (rest := '"' :: s)]
  · rw [take_consumed]
    dsimp only
    rw [run_seqs_cons, run_chr]
    rfl
  · intro c cs hc
    dsimp only
    rw [run_seqs_cons]
    refine run_chr_fail _ _ _ _ ?_
    rintro d ds h
    injection h with h3 h4
    subst h3
    simpa using hc
  · exact h1
  · intro c hc
    simp only [bne_iff_ne, ne_eq]
    rintro rfl
    exact h2 hc
  · rintro c cs h
    injection h with h3 h4
    subst h3
    rfl

theorem pathAndTimestamp_written (marker path written w x e : Str) (hp : PathWritten path written) (hw : Spaces w)
    (hx : '\n' ∉ x) (hxw : ∀ c cs, x = c :: cs → isWhite c = false) (he : e = [] ∨ e = ['\n']) :
    ∃ stamp, pathAndTimestamp nd marker (marker ++ (written ++ (w ++ (x ++ e)))) = .ok (some ⟨path, stamp⟩) ∧
      (∀ t y, x = t ++ y → Stamp nd t → stamp = some t) ∧ ((∀ t y, x = t ++ y → ¬ Stamp nd t) → stamp = none) := by
  have hrest : ∀ caps : Caps, Caps.get caps 4 = none →
      ∃ caps', run (seqs (plus isWhite :: afterPathRx nd)) (w ++ (x ++ e)) caps done = some caps' ∧
      (∀ n, n < 4 → Caps.get caps' n = Caps.get caps n) ∧
      (∀ t y, x = t ++ y → Stamp nd t → Caps.get caps' 4 = some t) ∧
      ((∀ t y, x = t ++ y → ¬ Stamp nd t) → Caps.get caps' 4 = none) := by
    intro caps h4
    by_cases hxe : x = []
    · obtain ⟨caps', e1, g1, g2, g3⟩ := run_afterPath (nd := nd) [] [] (by simp) (.inl rfl) caps h4
      refine ⟨caps', run_spaces hw hxw he (by rw [if_pos hxe]; exact e1), g1, ?_, ?_⟩
      · subst hxe; exact g2
      · subst hxe; exact g3
    · obtain ⟨caps', e1, g1, g2, g3⟩ := run_afterPath (nd := nd) x e hx he caps h4
      exact ⟨caps', run_spaces hw hxw he (by rw [if_neg hxe]; exact e1), g1, g2, g3⟩
  have hcap : captures (filePathRx nd marker) (marker ++ (written ++ (w ++ (x ++ e)))) =
      run (grp 1 pathRx) (written ++ (w ++ (x ++ e))) [] fun s caps => run (seqs (plus isWhite :: afterPathRx nd)) s caps done := by
    unfold captures filePathRx
    rw [run_seqs_cons, run_lit, run_seqs_cons]
    rfl
  unfold pathAndTimestamp
  rw [hcap]
  unfold run pathRx run
  rcases hp with ⟨hp1, hp2, rfl⟩ | ⟨hp1, hp2, hp3, rfl⟩
  · simp only [List.cons_append, List.append_assoc, List.nil_append]
    rw [run_quoted path _ _ _ hp1 hp2]
    obtain ⟨caps', e1, g1, g2, g3⟩ := hrest ((1, ('"' :: (path ++ '"' :: (w ++ (x ++ e)))).take
      (('"' :: (path ++ '"' :: (w ++ (x ++ e)))).length - (w ++ (x ++ e)).length)) :: [(2, path)]) (by simp [Caps.get, List.lookup])
    rw [e1, Option.some_or]
    refine ⟨Caps.get caps' 4, ?_, g2, g3⟩
    have : Caps.get caps' 2 = some path := by rw [g1 2 (by decide)]; simp [Caps.get, List.lookup]
    simp [pathAndTimestampFromCaptures, this]
  · obtain ⟨c, cs, rfl⟩ : ∃ c cs, written = c :: cs := by
      cases written with
      | nil => exact absurd rfl hp1
      | cons c cs => exact ⟨c, cs, rfl⟩
    have hq : c ≠ '"' := by simpa using hp3
    rw [run_seqs_cons]
    rw [run_chr_fail '"' _ _ _ (by
      rintro d ds h
      simp only [List.cons_append] at h
      injection h with h1 h2
      subst h1
      exact hq), Option.none_or]
    unfold run
    rw [run_plus_det (p := fun c => !isWhite c) (w := c :: cs) (rest := w ++ (x ++ e))]
    · rw [take_consumed]
      dsimp only
      rw [take_consumed]
      obtain ⟨caps', e1, g1, g2, g3⟩ := hrest [(1, c :: cs), (3, c :: cs)] (by simp [Caps.get, List.lookup])
      rw [e1]
      refine ⟨Caps.get caps' 4, ?_, g2, g3⟩
      have h2 : Caps.get caps' 2 = none := by rw [g1 2 (by decide)]; simp [Caps.get, List.lookup]
      have h3 : Caps.get caps' 3 = some (c :: cs) := by rw [g1 3 (by decide)]; simp [Caps.get, List.lookup]
      simp [pathAndTimestampFromCaptures, h2, h3]
    · intro d ds hd
      dsimp only
      rw [run_seqs_cons]
      refine run_plus_fail _ ?_
      rintro f fs h
      injection h with h1 h2
      subst h1
      simpa using hd
    · simp
    · intro d hd
      simp [hp2 d hd]
    · intro d ds h
      obtain ⟨y, ys, hy, hyw⟩ := spaces_head hw (x ++ e)
      rw [hy] at h
      injection h with h1 h2
      subst h1
      simp [hyw]

/-! ## No line makes the functions panic -/

theorem run_path_groups {s : Str} {caps : Caps} {k : Str → Caps → Option Caps} {b : Caps}
    (h : run (grp 1 pathRx) s caps k = some b) :
    ∃ rest caps', k rest caps' = some b ∧ (Caps.get caps' 2 ≠ none ∨ Caps.get caps' 3 ≠ none) := by
  unfold run pathRx run at h
  rw [Option.or_eq_some_iff] at h
  rcases h with h | ⟨-, h⟩
  · rw [run_seqs_cons] at h
    obtain ⟨-, r1, c1, -, -, h, -⟩ := run_some _ h
    rw [run_seqs_cons] at h
    unfold run at h
    obtain ⟨-, r2, c2, -, -, h, -⟩ := run_some _ h
    dsimp only at h
    rw [run_seqs_cons] at h
    obtain ⟨-, r3, c3, -, -, h, g⟩ := run_some _ h
    refine ⟨_, _, h, .inl ?_⟩
    have h2 := g 2 (by simp [groups, chr])
    have h1 : ∀ (u : Str) (c : Caps), Caps.get ((1, u) :: c) 2 = Caps.get c 2 := fun _ _ => rfl
    have h3 : ∀ (u : Str) (c : Caps), Caps.get ((2, u) :: c) 2 = some u := fun _ _ => rfl
    rw [h1, h2, h3]
    simp
  · unfold run at h
    obtain ⟨-, r2, c2, -, -, h, -⟩ := run_some _ h
    exact ⟨_, _, h, .inr (by simp [Caps.get, List.lookup])⟩

theorem pathAndTimestamp_total (marker line : Str) : ∃ r, pathAndTimestamp nd marker line = .ok r := by
  unfold pathAndTimestamp
  cases hc : captures (filePathRx nd marker) line with
  | none => exact ⟨none, rfl⟩
  | some caps =>
    unfold captures filePathRx at hc
    rw [run_seqs_cons] at hc
    obtain ⟨-, r1, c1, -, -, hc, -⟩ := run_some _ hc
    rw [run_seqs_cons] at hc
    obtain ⟨r2, c2, hc, hg⟩ := run_path_groups hc
    obtain ⟨-, r3, c3, -, -, hc, g⟩ := run_some _ hc
    have hcc : c3 = caps := by
      split at hc
      · injection hc
      · cases hc
    subst hcc
    have g' : ∀ n, n = 2 ∨ n = 3 → Caps.get c3 n = Caps.get c2 n := by
      intro n hn
      refine g n ?_
      rcases hn with rfl | rfl <;>
        simp [seqs, groups, chr, plus, timestampRx, altTimestampRx, rep]
    rw [← g' 2 (.inl rfl), ← g' 3 (.inr rfl)] at hg
    simp only [pathAndTimestampFromCaptures]
    cases h2 : Caps.get c3 2 with
    | some p => exact ⟨_, rfl⟩
    | none =>
      cases h3 : Caps.get c3 3 with
      | some p => exact ⟨_, rfl⟩
      | none => rw [h2, h3] at hg; simp at hg

/-- What the pattern accepts after the path is what `AfterPath` says. -/
theorem afterPath_of_lang {nd : Digits} {tail : Str} (h : Lang (seqs (plus isWhite :: afterPathRx nd)) tail) : ∃ x, AfterPath tail x := by
  obtain ⟨w, r, rfl, hw, st, r', rfl, hst, x, r'', rfl, hx, e, r3, rfl, he, h4⟩ := h
  obtain rfl : r3 = [] := h4
  rw [lang_plus] at hw
  have hst' : '\n' ∉ st := by
    rcases hst with rfl | h | h
    · simp
    · exact Stamp.no_newline (.inl (lang_isoStamp h))
    · exact Stamp.no_newline (.inr (lang_altStamp h))
  have hx' : '\n' ∉ x := fun h => by simpa [dot] using hx _ h
  have he' : e = [] ∨ e = ['\n'] := by
    rcases he with rfl | h
    · exact .inl rfl
    · exact .inr ((lang_chr _ _).1 h)
  -- the white space at the beginning of what follows
  obtain ⟨u, v, huv, hu, hv⟩ : ∃ u v, st ++ x = u ++ v ∧ (∀ c ∈ u, isWhite c = true) ∧ ∀ c cs, v = c :: cs → isWhite c = false := by
    refine ⟨(st ++ x).takeWhile isWhite, (st ++ x).dropWhile isWhite, by simp, ?_, ?_⟩
    · intro c hc
      exact List.all_eq_true.1 List.all_takeWhile c hc
    · intro c cs h
      have := List.head?_dropWhile_not isWhite (st ++ x)
      rw [h] at this
      simpa using this
  refine ⟨v, w ++ u, e, ?_, ⟨by simp [hw.1], ?_⟩, ?_, hv, he'⟩
  · have : st ++ (x ++ e) = u ++ (v ++ e) := by rw [← List.append_assoc, huv, List.append_assoc]
    simp [this]
  · intro c hc
    rcases List.mem_append.1 hc with h | h
    · exact hw.2 c h
    · exact hu c h
  · intro h
    have : '\n' ∈ st ++ x := by rw [huv]; simp [h]
    rcases List.mem_append.1 this with h | h
    · exact hst' h
    · exact hx' h

theorem quotedPath_of_lang {nd : Digits} {marker s u v : Str} (h1 : s = u ++ v)
    (hu : Lang (seqs [chr '"', grp 2 (plus fun c => c != '"'), chr '"']) u) (hv : Lang (seqs (plus isWhite :: afterPathRx nd)) v) :
    ∃ path x, QuotedPath marker (marker ++ s) path x := by
  obtain ⟨a, r, rfl, ha, path, r', rfl, hp, b, r3, rfl, hb, h3⟩ := hu
  obtain rfl : r3 = [] := h3
  rw [lang_chr] at ha hb
  subst ha hb h1
  obtain ⟨x, hx⟩ := afterPath_of_lang hv
  have hp := (lang_plus _ _).1 hp
  refine ⟨path, x, hp.1, fun h => by simpa using hp.2 _ h, v, by simp, hx⟩

/-- The same as `pathAndTimestamp_written` for a path as it is where no path in quotes can be read. -/
theorem pathAndTimestamp_plain {nd : Digits} {marker line path x : Str} (hp : PlainPath marker line path x)
    (hq : ∀ path y, ¬ QuotedPath marker line path y) {stamp : Option Str} (hs : StampOf nd x stamp) :
    pathAndTimestamp nd marker line = .ok (some ⟨path, stamp⟩) := by
  obtain ⟨hp1, hp2, tail, rfl, w, e, rfl, hw, hx, hxw, he⟩ := hp
  have hrest : ∀ caps : Caps, Caps.get caps 4 = none →
      ∃ caps', run (seqs (plus isWhite :: afterPathRx nd)) (w ++ (x ++ e)) caps done = some caps' ∧
      (∀ n, n < 4 → Caps.get caps' n = Caps.get caps n) ∧ Caps.get caps' 4 = stamp := by
    have key : ∀ {y : Str} {caps' : Caps}, x = y → (∀ t z, y = t ++ z → Stamp nd t → Caps.get caps' 4 = some t) →
        ((∀ t z, y = t ++ z → ¬ Stamp nd t) → Caps.get caps' 4 = none) → Caps.get caps' 4 = stamp := by
      rintro y caps' rfl g2 g3
      cases stamp with
      | none => exact g3 hs
      | some t => obtain ⟨h1, z, h2⟩ := hs; exact g2 t z h2 h1
    intro caps h4
    by_cases hxe : x = []
    · obtain ⟨caps', e1, g1, g2, g3⟩ := run_afterPath (nd := nd) [] [] (by simp) (.inl rfl) caps h4
      exact ⟨caps', run_spaces hw hxw he (by rw [if_pos hxe]; exact e1), g1, key hxe g2 g3⟩
    · obtain ⟨caps', e1, g1, g2, g3⟩ := run_afterPath (nd := nd) x e hx he caps h4
      exact ⟨caps', run_spaces hw hxw he (by rw [if_neg hxe]; exact e1), g1, key rfl g2 g3⟩
  have hcap : captures (filePathRx nd marker) (marker ++ (path ++ (w ++ (x ++ e)))) =
      run (grp 1 pathRx) (path ++ (w ++ (x ++ e))) [] fun s caps => run (seqs (plus isWhite :: afterPathRx nd)) s caps done := by
    unfold captures filePathRx
    rw [run_seqs_cons, run_lit, run_seqs_cons]
    rfl
  unfold pathAndTimestamp
  rw [hcap]
  unfold run pathRx run
  have hnone : ∀ k : Str → Caps → Option Caps, (∀ s caps b, k s caps = some b → Lang (seqs (plus isWhite :: afterPathRx nd)) s) →
      run (seqs [chr '"', grp 2 (plus fun c => c != '"'), chr '"']) (path ++ (w ++ (x ++ e))) [] k = none := by
    intro k hk
    cases hr : run (seqs [chr '"', grp 2 (plus fun c => c != '"'), chr '"']) (path ++ (w ++ (x ++ e))) [] k with
    | none => rfl
    | some b =>
      obtain ⟨u, v, caps', h1, h2, h3, -⟩ := run_some _ hr
      obtain ⟨p', y, h⟩ := quotedPath_of_lang (marker := marker) h1 h2 (hk _ _ _ h3)
      exact absurd h (hq p' y)
  rw [hnone _ (by
    intro s caps b h
    obtain ⟨u, v, caps', h1, h2, h3, -⟩ := run_some _ h
    unfold done at h3
    split at h3
    · next hv =>
      obtain rfl : v = [] := by simpa using hv
      rw [h1, List.append_nil]
      exact h2
    · cases h3), Option.none_or]
  unfold run
  rw [run_plus_det (p := fun c => !isWhite c) (w := path) (rest := w ++ (x ++ e))]
  · rw [take_consumed]
    dsimp only
    rw [take_consumed]
    obtain ⟨caps', e1, g1, g2⟩ := hrest [(1, path), (3, path)] (by simp [Caps.get, List.lookup])
    rw [e1]
    have h2 : Caps.get caps' 2 = none := by rw [g1 2 (by decide)]; simp [Caps.get, List.lookup]
    have h3 : Caps.get caps' 3 = some path := by rw [g1 3 (by decide)]; simp [Caps.get, List.lookup]
    simp [pathAndTimestampFromCaptures, h2, h3, g2]
  · intro d ds hd
    dsimp only
    rw [run_seqs_cons]
    refine run_plus_fail _ ?_
    rintro f fs h
    injection h with h1 h2
    subst h1
    simpa using hd
  · exact hp1
  · intro d hd
    simp [hp2 d hd]
  · intro d ds h
    obtain ⟨y, ys, hy, hyw⟩ := spaces_head hw (x ++ e)
    rw [hy] at h
    injection h with h1 h2
    subst h1
    simp [hyw]

theorem pathAndTimestamp_exact (nd : Digits) (marker line : Str) (r : PathAndTimestamp) :
    pathAndTimestamp nd marker line = .ok (some r) ↔ FileHeader nd marker line r := by
  have back : ∀ r, FileHeader nd marker line r → pathAndTimestamp nd marker line = .ok (some r) := by
    rintro ⟨path, stamp⟩ ⟨x, hs, ⟨h1, h2, tail, rfl, w, e, rfl, hw, hx, hxw, he⟩ | ⟨h1, h2⟩⟩
    · obtain ⟨stamp', h, g1, g2⟩ := pathAndTimestamp_written (nd := nd) marker path _ w x e (.inl ⟨h1, h2, rfl⟩) hw hx hxw he
      have : stamp' = stamp := by
        cases stamp with
        | none => exact g2 hs
        | some t => obtain ⟨h3, y, h4⟩ := hs; exact g1 t y h4 h3
      rw [← this, ← h]
      simp
    · exact pathAndTimestamp_plain h1 h2 hs
  refine ⟨fun h => ?_, back r⟩
  have hl : Lang (filePathRx nd marker) line := by
    rw [← captures_isSome_iff]
    unfold pathAndTimestamp at h
    cases hc : captures (filePathRx nd marker) line with
    | some _ => rfl
    | none => rw [hc] at h; cases h
  obtain ⟨m, s, rfl, hm, u, v, rfl, hu, hv⟩ := hl
  rw [lang_lit] at hm
  subst hm
  have stamp : ∀ x, ∃ st, StampOf nd x st := by
    intro x
    by_cases h : ∃ t y, x = t ++ y ∧ Stamp nd t
    · obtain ⟨t, y, h1, h2⟩ := h
      exact ⟨some t, h2, y, h1⟩
    · exact ⟨none, fun t y h1 h2 => h ⟨t, y, h1, h2⟩⟩
  have use : ∀ path x, (QuotedPath m (m ++ (u ++ v)) path x ∨ PlainPath m (m ++ (u ++ v)) path x ∧
      ∀ p y, ¬ QuotedPath m (m ++ (u ++ v)) p y) → FileHeader nd m (m ++ (u ++ v)) r := by
    intro path x hx
    obtain ⟨st, hst⟩ := stamp x
    have := back ⟨path, st⟩ ⟨x, hst, hx⟩
    rw [h] at this
    injection this with this
    injection this with this
    rw [this]
    exact ⟨x, hst, hx⟩
  by_cases hq : ∃ p y, QuotedPath m (m ++ (u ++ v)) p y
  · obtain ⟨p, y, hq⟩ := hq
    exact use p y (.inl hq)
  · rcases hu with hu | hu
    · obtain ⟨p, y, h⟩ := quotedPath_of_lang (marker := m) (nd := nd) rfl hu hv
      exact absurd ⟨p, y, h⟩ hq
    · obtain ⟨x, hx⟩ := afterPath_of_lang hv
      have hu := (lang_plus _ _).1 hu
      exact use u x (.inr ⟨⟨hu.1, fun c hc => by simpa using hu.2 c hc, v, rfl, hx⟩, fun p y h => hq ⟨p, y, h⟩⟩)

end PwDiff
