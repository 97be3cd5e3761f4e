import Verif.Props.LineEndings
import Verif.Props.Mirror

/-! # C132: moving and copying a passage -/

namespace PwDiff

section

variable {T : Type}

/-- The equal pairs, if the first sequence has no repetitions and the second one is made of its items. -/
theorem hit_of_index {before after : List T} (hn : before.Nodup) (f : Nat → Nat) (hf : ∀ i, after[i]? = before[f i]?) (j i : Nat) :
    Hit before after j i ↔ j = f i ∧ j < before.length := by
  constructor
  · rintro ⟨x, h1, h2⟩
    rw [hf] at h2
    have hj := (List.getElem?_eq_some_iff.1 h1).1
    exact ⟨(List.getElem?_inj hj hn).1 (h1.trans h2.symm), hj⟩
  · rintro ⟨rfl, h⟩
    exact ⟨before[f i], by simp [h], by rw [hf]; simp [h]⟩

theorem move_hits (P X Y S : List T) (hn : (P ++ X ++ Y ++ S).Nodup) (j i : Nat) :
    Hit (P ++ X ++ Y ++ S) (P ++ Y ++ X ++ S) j i ↔
      j = i ∧ j < P.length ∨
      P.length ≤ j ∧ j < P.length + X.length ∧ i = j + Y.length ∨
      P.length + X.length ≤ j ∧ j < P.length + X.length + Y.length ∧ j = i + X.length ∨
      j = i ∧ P.length + X.length + Y.length ≤ j ∧ j < P.length + X.length + Y.length + S.length := by
  rw [hit_of_index hn (fun i => if i < P.length then i else if i < P.length + Y.length then i + X.length else
    if i < P.length + Y.length + X.length then i - Y.length else i)]
  · simp only [List.length_append]
    split
    · omega
    · split
      · omega
      · split <;> omega
  · intro i
    simp only [List.getElem?_append, List.length_append]
    grind

theorem move_noIsland (P X Y S : List T) (hn : (P ++ X ++ Y ++ S).Nodup) :
    NoIsland (P ++ X ++ Y ++ S) (P ++ Y ++ X ++ S) := by
  intro j i a b
  rw [move_hits P X Y S hn] at a b ⊢
  omega

/-- A copy of the passage `X` further on. -/
theorem copyOn_noIsland (P X M S : List T) (hn : (P ++ X ++ M ++ S).Nodup) :
    NoIsland (P ++ X ++ M ++ S) (P ++ X ++ M ++ X ++ S) := by
  have hh := hit_of_index (after := P ++ X ++ M ++ X ++ S) hn (fun i => if i < P.length + X.length + M.length then i else
    if i < P.length + X.length + M.length + X.length then i - (X.length + M.length) else i - X.length) (by
      intro i
      simp only [List.getElem?_append, List.length_append]
      grind)
  intro j i a b
  rw [hh] at a b ⊢
  simp only [List.length_append] at *
  grind

/-- A copy of the passage `X` further up. -/
theorem copyUp_noIsland (P X M S : List T) (hn : (P ++ M ++ X ++ S).Nodup) :
    NoIsland (P ++ M ++ X ++ S) (P ++ X ++ M ++ X ++ S) := by
  have hh := hit_of_index (after := P ++ X ++ M ++ X ++ S) hn (fun i => if i < P.length then i else
    if i < P.length + X.length then i + M.length else i - X.length) (by
      intro i
      simp only [List.getElem?_append, List.length_append]
      grind)
  intro j i a b
  rw [hh] at a b ⊢
  simp only [List.length_append] at *
  grind

/-- If the common items of a region stand in the same order, all of them end up in blocks. -/
theorem Decomp.covers_region {before after : List T} {bs be as ae : Nat} {d : List CommonSubsequence}
    (h : Decomp before after bs be as ae d) (hn : NoIsland before after)
    (ho : ∀ j i j' i', bs ≤ j → j < be → as ≤ i → i < ae → bs ≤ j' → j' < be → as ≤ i' → i' < ae →
      Hit before after j i → Hit before after j' i' → (j < j' ↔ i < i')) :
    ∀ j i, bs ≤ j → j < be → as ≤ i → i < ae → Hit before after j i → Covered d j i := by
  induction h with
  | leaf h1 h2 hno => intro j i a1 a2 a3 a4 hh; exact absurd hh (hno j i a1 a2 a3 a4)
  | @node bs be as ae c L R hc hl hr ihl ihr =>
    intro j i a1 a2 a3 a4 hh
    have hrun := hc.shape.commonRun hn
    have hpos := hc.pos
    have hin : bs ≤ c.b ∧ c.b + c.n ≤ be ∧ as ≤ c.a ∧ c.a + c.n ≤ ae := by
      obtain ⟨n, e, hch, hsk, e1⟩ := hc
      have g1 := hch.inOld
      have g2 := hch.inNew
      have g4 := hsk.inside
      simp only at g1 g2 g4
      rcases Nat.eq_zero_or_pos e with h0 | h0
      · omega
      · have := g4 h0; omega
    have first := hrun 0 (by omega)
    have last := hrun (c.n - 1) (by omega)
    have o1 := ho _ _ _ _ a1 a2 a3 a4 (by omega) (by omega) (by omega) (by omega) hh first
    have o2 := ho _ _ _ _ (by omega) (by omega) (by omega) (by omega) a1 a2 a3 a4 last hh
    by_cases h1 : j < c.b
    · obtain ⟨x, hx, hcov⟩ := ihl (fun j i j' i' b1 b2 b3 b4 b5 b6 b7 b8 => ho j i j' i' b1 (by omega) b3 (by omega) b5
        (by omega) b7 (by omega)) j i a1 h1 a3 (by omega) hh
      exact ⟨x, by simp [hx], hcov⟩
    · by_cases h2 : c.b + c.n ≤ j
      · obtain ⟨x, hx, hcov⟩ := ihr (fun j i j' i' b1 b2 b3 b4 b5 b6 b7 b8 => ho j i j' i' (by omega) b2 (by omega) b4
          (by omega) b6 (by omega) b8) j i h2 a2 (by omega) a4 hh
        exact ⟨x, by simp [hx], hcov⟩
      · have here := hrun (j - c.b) (by omega)
        have o3 := ho _ _ _ _ a1 a2 a3 a4 (by omega) (by omega) (by omega) (by omega) hh here
        have o4 := ho _ _ _ _ (by omega) (by omega) (by omega) (by omega) a1 a2 a3 a4 here hh
        exact ⟨c, by simp, j - c.b, by omega, by omega, by omega⟩

theorem covered_node {c : CommonSubsequence} {L R : List CommonSubsequence} {j i : Nat} :
    Covered (L ++ c :: R) j i ↔ Covered L j i ∨ c.Covers j i ∨ Covered R j i := by
  simp only [Covered, List.mem_append, List.mem_cons]
  constructor
  · rintro ⟨x, h | rfl | h, hx⟩
    · exact .inl ⟨x, h, hx⟩
    · exact .inr (.inl hx)
    · exact .inr (.inr ⟨x, h, hx⟩)
  · rintro (⟨x, h, hx⟩ | hx | ⟨x, h, hx⟩)
    · exact ⟨x, .inl h, hx⟩
    · exact ⟨c, .inr (.inl rfl), hx⟩
    · exact ⟨x, .inr (.inr h), hx⟩

/-- All blocks consist of equal pairs. -/
theorem Decomp.covered_hit {before after : List T} {bs be as ae : Nat} {d : List CommonSubsequence}
    (h : Decomp before after bs be as ae d) (hn : NoIsland before after) {j i : Nat} (hc : Covered d j i) :
    Hit before after j i := by
  induction h with
  | leaf => obtain ⟨c, hc, -⟩ := hc; cases hc
  | @node bs be as ae c L R hb hl hr ihl ihr =>
    rcases covered_node.1 hc with h | ⟨t, ht, rfl, rfl⟩ | h
    · exact ihl h
    · exact hb.shape.commonRun hn t ht
    · exact ihr h

/-- What is found of two passages that have changed places. -/
theorem move_covered (P X Y S : List T) (hn : (P ++ X ++ Y ++ S).Nodup) (hx : X ≠ []) (hy : Y ≠ [])
    {bs be as ae : Nat} {d : List CommonSubsequence}
    (h : Decomp (P ++ X ++ Y ++ S) (P ++ Y ++ X ++ S) bs be as ae d) (h1 : bs ≤ P.length) (h2 : as ≤ P.length)
    (h3 : P.length + X.length + Y.length ≤ be) (h4 : P.length + X.length + Y.length ≤ ae) :
    ∀ j i, bs ≤ j → j < be → as ≤ i → i < ae → (Covered d j i ↔ Hit (P ++ X ++ Y ++ S) (P ++ Y ++ X ++ S) j i ∧
      (j < P.length ∨ P.length + X.length + Y.length ≤ j ∨
        (if Y.length < X.length then j < P.length + X.length else P.length + X.length ≤ j))) := by
  have hx' := List.length_pos_iff.2 hx
  have hy' := List.length_pos_iff.2 hy
  have hi := move_noIsland P X Y S hn
  have hh := move_hits P X Y S hn
  generalize hB : P ++ X ++ Y ++ S = before at *
  generalize hA : P ++ Y ++ X ++ S = after at *
  have runX : CommonRun before after P.length (P.length + Y.length) X.length := by
    intro t ht; rw [hh]; omega
  have runY : CommonRun before after (P.length + X.length) P.length Y.length := by
    intro t ht; rw [hh]; omega
  induction h with
  | leaf g1 g2 hno => exact absurd (runX 0 hx') (hno _ _ (by omega) (by omega) (by omega) (by omega))
  | @node bs be as ae c L R hc hl hr ihl ihr =>
    have hrun := hc.shape.commonRun hi
    have hpos := hc.pos
    intro j i a1 a2 a3 a4
    obtain ⟨n, e, hch, hsk, e1⟩ := hc
    have g1 := hch.inOld
    have g2 := hch.inNew
    have g3 := hch.longest _ _ _ h1 (by simp only; omega) (by simp only; omega) (by simp only; omega) runX
    have g3' := hch.longest _ _ _ (by simp only; omega) (by simp only; omega) h2 (by simp only; omega) runY
    have g4 := hsk.inside
    simp only at g1 g2 g4
    have hin : c.b + c.n ≤ be ∧ c.a + c.n ≤ ae := by
      rcases Nat.eq_zero_or_pos e with h0 | h0
      · omega
      · have := g4 h0; omega
    have first := hrun 0 (by omega)
    have last := hrun (c.n - 1) (by omega)
    have mid : c.b < P.length → P.length < c.b + c.n → Hit before after P.length (P.length + c.a - c.b) := by
      intro m1 m2
      have := hrun (P.length - c.b) (by omega)
      rwa [show c.b + (P.length - c.b) = P.length by omega,
        show c.a + (P.length - c.b) = P.length + c.a - c.b by omega] at this
    have cov : c.Covers j i ↔ c.b ≤ j ∧ j < c.b + c.n ∧ j + c.a = i + c.b := by
      constructor
      · rintro ⟨t, ht, rfl, rfl⟩; omega
      · rintro ⟨m1, m2, m3⟩; exact ⟨j - c.b, by omega, by omega, by omega⟩
    have whole : ∀ {b b' a a' : Nat} {d : List CommonSubsequence}, Decomp before after b b' a a' d →
        (b' ≤ P.length ∨ P.length + X.length + Y.length ≤ b ∨ a' ≤ P.length ∨ P.length + X.length + Y.length ≤ a ∨
          b' ≤ P.length + X.length ∧ a' ≤ P.length + Y.length ∨ P.length + X.length ≤ b ∧ P.length + Y.length ≤ a ∨
          P.length + X.length ≤ b ∨ b' ≤ P.length + X.length) →
        (Covered d j i ↔ (b ≤ j ∧ j < b' ∧ a ≤ i ∧ i < a') ∧ Hit before after j i) := by
      intro b b' a a' d hd ho
      constructor
      · intro q; exact ⟨hd.inside q, hd.covered_hit hi q⟩
      · rintro ⟨⟨m1, m2, m3, m4⟩, q⟩
        refine hd.covers_region hi ?_ j i m1 m2 m3 m4 q
        intro j i j' i' b1 b2 b3 b4 b5 b6 b7 b8 q1 q2
        rw [hh] at q1 q2
        clear hh runX runY first last mid cov hi hrun g3 g3' g4 m1 m2 m3 m4 q
        rcases q1 with q1 | q1 | q1 | q1 <;> rcases q2 with q2 | q2 | q2 | q2 <;> omega
    rw [covered_node, cov]
    rw [hh] at first last
    have cases4 : c.b + c.n ≤ P.length ∧ c.b = c.a ∨ P.length + X.length + Y.length ≤ c.b ∧ c.b = c.a ∨
        P.length ≤ c.b ∧ c.b + c.n ≤ P.length + X.length ∧ c.a = c.b + Y.length ∨
        P.length + X.length ≤ c.b ∧ c.b + c.n ≤ P.length + X.length + Y.length ∧ c.b = c.a + X.length := by
      rcases first with q | q | q | q
      · left
        refine ⟨?_, by omega⟩
        apply Classical.byContradiction
        intro hne
        have := mid (by omega) (by omega)
        rw [hh] at this
        omega
      · rcases last with r | r | r | r <;> omega
      · rcases last with r | r | r | r <;> omega
      · omega
    have hS : c.b + c.n ≤ P.length + X.length + Y.length + S.length := by omega
    clear first last mid
    rcases cases4 with k | k | k | k
    · have cr : Covered R j i ↔ (c.b + c.n ≤ j ∧ j < be ∧ c.a + c.n ≤ i ∧ i < ae) ∧ Covered R j i :=
        ⟨fun q => ⟨hr.inside q, q⟩, fun q => q.2⟩
      have cr' : (c.b + c.n ≤ j ∧ j < be ∧ c.a + c.n ≤ i ∧ i < ae) ∧ Covered R j i ↔ _ :=
        and_congr_right fun q => ihr (by omega) (by omega) h3 h4 j i q.1 q.2.1 q.2.2.1 q.2.2.2
      rw [whole hl (by omega), cr, cr', hh]
      clear cr cr' whole ihl ihr hh runX runY cov hi hrun g3 g3' g4 hch hsk
      split <;> omega
    · have cl : Covered L j i ↔ (bs ≤ j ∧ j < c.b ∧ as ≤ i ∧ i < c.a) ∧ Covered L j i :=
        ⟨fun q => ⟨hl.inside q, q⟩, fun q => q.2⟩
      have cl' : (bs ≤ j ∧ j < c.b ∧ as ≤ i ∧ i < c.a) ∧ Covered L j i ↔ _ :=
        and_congr_right fun q => ihl h1 h2 (by omega) (by omega) j i q.1 q.2.1 q.2.2.1 q.2.2.2
      rw [whole hr (by omega), cl, cl', hh]
      clear cl cl' whole ihl ihr hh runX runY cov hi hrun g3 g3' g4 hch hsk
      split <;> omega
    · have hlt : Y.length < X.length := by
        apply Classical.byContradiction
        intro hne
        have := hch.first (P.length + X.length) P.length (by simp only; omega) (by simp only; omega) h2 (by simp only; omega)
          (by rw [show n = Y.length by omega]; exact runY)
        omega
      rw [whole hr (by omega), whole hl (by omega), hh, if_pos hlt]
      clear whole ihl ihr hh runX runY cov hi hrun g4 hch hsk
      omega
    · rw [whole hr (by omega), whole hl (by omega), hh, if_neg (by omega)]
      clear whole ihl ihr hh runX runY cov hi hrun g4 hch hsk
      omega

variable [DecidableEq T] [Item T] [LawfulItem T]

/-- Two neighbouring passages of a file without repeated lines change places. What is unchanged is everything around them, and the
longer one of the two, which is taken as standing still; the other one is recorded as removed and added. If they are equally long, it
is the one that comes first in the new file that is kept. -/
theorem C132_changes (p : Profile) (P X Y S : List T) (hn : (P ++ X ++ Y ++ S).Nodup) (hx : X ≠ []) (hy : Y ≠ []) :
    ∃ changes, changesOf p (P ++ X ++ Y ++ S) (P ++ Y ++ X ++ S) = .ok changes ∧
      ∀ j i, Kept changes j i ↔ Hit (P ++ X ++ Y ++ S) (P ++ Y ++ X ++ S) j i ∧
        (j < P.length ∨ P.length + X.length + Y.length ≤ j ∨
          (if Y.length < X.length then j < P.length + X.length else P.length + X.length ≤ j)) := by
  obtain ⟨changes, hc⟩ : ∃ changes, changesOf p (P ++ X ++ Y ++ S) (P ++ Y ++ X ++ S) = .ok changes :=
    have ⟨_, h, _⟩ := changesOf_spec p (P ++ X ++ Y ++ S) (P ++ Y ++ X ++ S)
    ⟨_, h⟩
  refine ⟨changes, hc, ?_⟩
  obtain ⟨-, -, -, d, hd, hk⟩ := (C70_changes p _ _ changes).1 hc
  intro j i
  rw [hk]
  constructor
  · intro q
    have := hd.inside q
    exact (move_covered P X Y S hn hx hy hd (by omega) (by omega) (by simp; omega) (by simp; omega) j i (by omega) (by omega)
      (by omega) (by omega)).1 q
  · intro q
    obtain ⟨x, h1, h2⟩ := q.1
    exact (move_covered P X Y S hn hx hy hd (by omega) (by omega) (by simp; omega) (by simp; omega) j i (by omega)
      (List.getElem?_eq_some_iff.1 h1).1 (by omega) (List.getElem?_eq_some_iff.1 h2).1).2 q

/-- Where the two passages are all there is, the change list itself. -/
example : changesOf .debug ([1, 2, 3, 4, 5] : List UInt8) [4, 5, 1, 2, 3] =
    .ok [.insert 0 ⟨0, 2⟩, .noChange ⟨0, 2, 3⟩, .delete ⟨3, 5⟩ 5] := by decide +kernel
example := C132_changes .debug ([1, 2] : List UInt8) [3, 4, 5] [6, 7] [8] (by decide) (by decide) (by decide)

end

/-- One passage of the text is moved, or copied to another place. -/
inductive Rearranged {T : Type} : List T → List T → Prop
  /-- `Y` is moved up, or `X` is moved down -/
  | move (P X Y S : List T) : Rearranged (P ++ X ++ Y ++ S) (P ++ Y ++ X ++ S)
  /-- a copy of `X` is put in further down -/
  | copyDown (P X M S : List T) : Rearranged (P ++ X ++ M ++ S) (P ++ X ++ M ++ X ++ S)
  /-- a copy of `X` is put in further up -/
  | copyUp (P X M S : List T) : Rearranged (P ++ M ++ X ++ S) (P ++ X ++ M ++ X ++ S)

/-- If no line of the first file occurs twice, and the second file differs from it by one passage having been moved or copied,
`pw_diff` and `pw_patch` carry this over, and `pw_patch --reverse` takes it back. -/
theorem C132_session (p q : Profile) (temp patch before after : Path) (context : Nat) (w : World) (s t : Str)
    (hw : Fresh w patch temp) (hctx : context ≤ 255) (hub : IsUtf8 before) (hua : IsUtf8 after)
    (hb : w.fs.contentAt before = some ⟨s.bytes, false⟩) (ha : w.fs.contentAt after = some ⟨t.bytes, false⟩)
    (hsb : (splitInclusive s).length ≤ maxLines) (hst : (splitInclusive t).length ≤ maxLines)
    (hn : (splitInclusive s).Nodup) (hr : Rearranged (splitInclusive s) (splitInclusive t)) :
    ∃ patchContent, session p q temp patch before after context w =
      ((.exited 0, { w with stdout := patchContent }),
       (.exited 0, { w with fs := (w.fs.set (w.fs.entry patch) (some (.file patchContent))).set (w.fs.entry before) (some (.file t.bytes)) }),
       (.exited 0, { w with fs := (w.fs.set (w.fs.entry patch) (some (.file patchContent))).set (w.fs.entry before) (some (.file s.bytes)) })) := by
  refine C49_text_partial p q temp patch before after context w s t hw hctx hub hua hb ha hsb hst ?_
  generalize splitInclusive s = b at *
  generalize splitInclusive t = a at *
  cases hr with
  | move P X Y S => exact move_noIsland P X Y S hn
  | copyDown P X M S => exact copyOn_noIsland P X M S hn
  | copyUp P X M S => exact copyUp_noIsland P X M S hn

/-- What one may expect: lines can be put into any other order by a patch. -/
def C132_statement : Prop :=
  ∀ (p q : Profile) (s t : Str) (context : Nat) (cs : List (DiffClump Str)), context ≤ 255 → (splitInclusive s).Nodup →
    (splitInclusive t).Perm (splitInclusive s) → diffClumps p (splitInclusive s) (splitInclusive t) context = .ok cs →
    (applyInto q cs (splitInclusive s) false).run.2 = t.bytes

/-- It is not so: when the second and the fourth of five lines have changed places, no difference is found at all. -/
theorem C132_refuted : ¬ C132_statement := by
  intro h
  have := h .debug .debug ['a', '\n', 'b', '\n', 'c', '\n', 'd', '\n', 'e', '\n'] ['a', '\n', 'd', '\n', 'c', '\n', 'b', '\n', 'e', '\n'] 3 []
    (by decide) (by decide +kernel) (by decide +kernel) (by decide +kernel)
  revert this
  decide +kernel

/-- And when the second and the fourth of four lines have changed places, one of them is lost: the patch makes `abcb` of `abcd`. -/
theorem C132_lost : changesOf .debug ([1, 2, 3, 4] : List UInt8) [1, 4, 3, 2] = .ok [.noChange ⟨0, 0, 3⟩, .replace ⟨3, 4⟩ ⟨3, 4⟩] ∧
    replay ([1, 2, 3, 4] : List UInt8) [1, 4, 3, 2] [.noChange ⟨0, 0, 3⟩, .replace ⟨3, 4⟩ ⟨3, 4⟩] = [1, 2, 3, 2] :=
  ⟨by decide +kernel, by decide +kernel⟩

/-- With repeated lines a move may be lost as well. -/
theorem C132_nodup_needed : Rearranged ([1, 1, 2, 1, 3] : List UInt8) [1, 1, 3, 1, 2] ∧
    changesOf .debug ([1, 1, 2, 1, 3] : List UInt8) [1, 1, 3, 1, 2] = .ok [.noChange ⟨0, 0, 4⟩, .replace ⟨4, 5⟩ ⟨4, 5⟩] :=
  ⟨.move [1] [1, 2] [1, 3] [], by decide +kernel⟩

example (p q : Profile) (context : Nat) (hctx : context ≤ 255) : ∃ r,
    (session p q [84] [80] [65] [67] context ⟨FS.ofFiles [([65], Str.bytes (['a', '\n', 'b', '\n', 'c', '\n'])),
      ([67], Str.bytes (['c', '\n', 'a', '\n', 'b', '\n']))], [], []⟩).2.1 = (.exited 0, r) ∧
      r.fs.contentAt [65] = some ⟨Str.bytes (['c', '\n', 'a', '\n', 'b', '\n']), false⟩ := by
  obtain ⟨e1, e2, e3, e3', e4, e5, e6, e6', e7, e8⟩ := FS.ofFiles_two (Str.bytes (['a', '\n', 'b', '\n', 'c', '\n']))
    (Str.bytes (['c', '\n', 'a', '\n', 'b', '\n']))
  generalize FS.ofFiles [([65], Str.bytes (['a', '\n', 'b', '\n', 'c', '\n'])),
    ([67], Str.bytes (['c', '\n', 'a', '\n', 'b', '\n']))] = fs at *
  obtain ⟨_, e⟩ := C132_session p q [84] [80] [65] [67] context ⟨fs, [], []⟩ ['a', '\n', 'b', '\n', 'c', '\n']
    ['c', '\n', 'a', '\n', 'b', '\n']
    ⟨rfl, rfl, by simp [e3', e6], by simp [e3, e6'], by simp [e3, e3']⟩ hctx ⟨['A'], by decide⟩ ⟨['C'], by decide⟩ e7 e8
    (by decide +kernel) (by decide +kernel) (by decide +kernel)
    (Rearranged.move [] [['a', '\n'], ['b', '\n']] [['c', '\n']] [])
  rw [e]
  exact ⟨_, rfl, FS.contentAt_of_file (by simp)⟩

end PwDiff
