import Verif.Props.Lost
import Verif.Props.Undo

/-! # C83: files to which a patch applies cleanly -/

namespace PwDiff

section

variable {T : Type}

/-- The clumps of a diff, where their old lines stand in another file, are a diff between that file and what they make of it. -/
theorem Diffed.transplant {skip : CommonSubsequence → Prop} {before after l text : List T} {i j ie je : Nat} {cs : List (DiffClump T)}
    (h : Diffed skip before after i j cs ie je) (hs : StandInOrder l 0 i cs) (hd : text.drop j = patchedFrom l 0 i cs)
    (hj : j ≤ text.length) :
    Diffed (fun g => cut l g.b (g.b + g.n) = cut text g.a (g.a + g.n)) l text i j cs l.length text.length := by
  induction cs generalizing i j with
  | nil =>
    have hle : i ≤ l.length := hs
    have e := congrArg List.length hd
    simp only [patchedFrom, List.length_drop] at e
    refine ⟨l.length - i, by omega, by omega, ?_⟩
    show cut l i (i + (l.length - i)) = cut text j (j + (l.length - i))
    rw [show i + (l.length - i) = l.length by omega, show j + (l.length - i) = text.length by omega, cut_length_eq, cut_length_eq, hd]
    rfl
  | cons c cs ih =>
    obtain ⟨⟨n, h1, h2, -⟩, -, -, h5⟩ := h
    obtain ⟨k1, k2, k3⟩ := hs
    have e : (c.before.start + 0 : Int).toNat = c.before.start := by omega
    obtain ⟨-, s2, s3⟩ := (standsAt_iff _ _ _).1 k2
    rw [e] at s2 s3 k3
    simp only [patchedFrom, e] at hd
    have hn : (cut l i c.before.start).length = n := by
      rw [length_cut _ _ _ (by omega)]; omega
    have hdrop : ∀ m, text.drop (j + m) = (text.drop j).drop m := by intro m; rw [List.drop_drop]
    have hlen := congrArg List.length hd
    simp only [List.length_drop, List.length_append, hn] at hlen
    have hrest : text.drop (c.after.start + c.after.items.length) =
        patchedFrom l 0 (c.before.start + c.before.items.length) cs := by
      rw [h2, Nat.add_assoc, hdrop, hd, List.append_assoc, ← List.drop_drop, List.drop_left' hn, List.drop_left' rfl]
    refine ⟨⟨n, h1, h2, ?_⟩, s3.symm, ?_, ih h5 k3 hrest (by omega)⟩
    · show cut l i (i + n) = cut text j (j + n)
      rw [show i + n = c.before.start by omega]
      conv => rhs; unfold cut
      rw [hd, show j + n - j = n by omega, List.append_assoc, List.take_left' hn]
    · rw [h2]
      unfold cut
      rw [hdrop, hd, List.append_assoc, List.drop_left' hn,
        show j + n + c.after.items.length - (j + n) = c.after.items.length by omega, List.take_left' rfl]

/-- The same clumps change the length of every file by the same number. -/
theorem Diffed.growth {skip skip' : CommonSubsequence → Prop} {before after before' after' : List T} {i j ie je ie' je' : Nat}
    {cs : List (DiffClump T)} (h : Diffed skip before after i j cs ie je) (h' : Diffed skip' before' after' i j cs ie' je') :
    je + ie' = je' + ie := by
  induction cs generalizing i j with
  | nil =>
    obtain ⟨n, h1, h2, -⟩ := h
    obtain ⟨n', h1', h2', -⟩ := h'
    omega
  | cons c cs ih => exact ih h.2.2.2 h'.2.2.2

/-- The clumps that stand in the file stand there in order. -/
theorem standInOrder_of_stands {l : List T} {cs : List (DiffClump T)} (ho : OldInOrder cs) {k : Nat} (hk : k ≤ l.length)
    (hk' : ∀ c ∈ cs.head?, k ≤ c.before.start) (hs : ∀ c ∈ cs, StandsAt c.before.items l c.before.start) : StandInOrder l 0 k cs := by
  induction cs generalizing k with
  | nil => exact hk
  | cons c cs ih =>
    have h1 := hs c (by simp)
    have h2 := hk' c (by simp)
    have h3 := (standsAt_iff _ _ _).1 h1
    refine ⟨by omega, by rw [Int.add_zero]; exact h1, ?_⟩
    refine ih ?_ (by omega) ?_ (fun c h => hs c (by simp [h]))
    · cases cs with
      | nil => trivial
      | cons d cs => exact ho.2
    · intro d hd
      cases cs with
      | nil => cases hd
      | cons d' cs =>
        simp only [List.head?_cons, Option.mem_def, Option.some.injEq] at hd
        subst hd
        have := ho.1
        omega

variable [Item T]

/-- At most as many clumps are counted as clean as there are; and if all are, all stand at their places. -/
theorem Patching.clean_stands {p : Profile} {l : List T} {k : Nat} {offset : Int} {st st' : Statistics} {cs : List (DiffClump T)}
    {out : List UInt8} {r : Outcome Statistics} (h : Patching p l k offset st cs out r) (hr : r = .ok st') :
    st'.clean ≤ st.clean + cs.length ∧
      (st'.clean = st.clean + cs.length → ∀ c ∈ cs, StandsAt c.before.items l (c.before.start + offset)) := by
  induction h with
  | finish => cases hr; simp
  | overrun | crash | applyPanic => cases hr
  | @apply k offset st c cs d w ls out r hd _ _ ih =>
    obtain ⟨i1, i2⟩ := ih hr
    simp only [Decision.count] at i1 i2
    split at i1
    · next hc =>
      rw [if_pos hc] at i2
      obtain ⟨rfl, rfl⟩ := hc
      simp only [List.length_cons] at *
      refine ⟨by omega, ?_⟩
      intro he
      rw [Int.add_zero] at i2
      have hf := hd.apply_fits
      rw [Int.add_zero] at hf
      intro x hx
      rcases List.mem_cons.1 hx with rfl | hx
      · exact hf
      · exact i2 (by omega) x hx
    · simp only [List.length_cons] at *
      exact ⟨by omega, fun he => by omega⟩
  | already _ _ ih =>
    obtain ⟨i1, -⟩ := ih hr
    simp only [Decision.count, List.length_cons] at *
    split at i1 <;> exact ⟨by simp only at i1; omega, fun he => by simp only at i1; omega⟩
  | failed _ _ ih =>
    obtain ⟨i1, -⟩ := ih hr
    simp only [Decision.count, List.length_cons] at *
    exact ⟨by omega, fun he => by omega⟩

variable [DecidableEq T] [LawfulItem T]

/-- A generated patch applies to a file with every clump clean exactly if the old lines of every clump stand at their place in
the file.  The result is then recognised as patched, and applying the patch to it in reverse gives the file back, again with
every clump clean. -/
theorem C83_clean (p q q' : Profile) (before after : List T) (context : Nat) (hctx : context ≤ 255)
    (hb : before.length ≤ maxLines) (ha : after.length ≤ maxLines) (cs : List (DiffClump T))
    (h : diffClumps p before after context = .ok cs) (l : List T) (hl : l.length + after.length ≤ maxLines) :
    ((applyInto q cs l false).run.1 = .ok { clean := cs.length } ↔ ∀ c ∈ cs, StandsAt c.before.items l c.before.start) ∧
    ((∀ c ∈ cs, StandsAt c.before.items l c.before.start) →
      ∃ text, (applyInto q cs l false).run = (.ok { clean := cs.length }, bytesOf text) ∧
        text.length + before.length = l.length + after.length ∧
        isAlreadyApplied q' cs text false = .ok true ∧
        (applyInto q' cs text true).run = (.ok { clean := cs.length }, bytesOf l)) := by
  have hd := (diffClumps_full hctx h).1
  have hw := hd.wellFormed hb ha
  have hsz := hd.size hb ha (l := l) (by omega)
  obtain ⟨skip, hd'⟩ := hd.diffed
  have ho := oldInOrder_of_stand hd'.standInOrder
  have main : (∀ c ∈ cs, StandsAt c.before.items l c.before.start) →
      ∃ text, (applyInto q cs l false).run = (.ok { clean := cs.length }, bytesOf text) ∧
        text.length + before.length = l.length + after.length ∧
        isAlreadyApplied q' cs text false = .ok true ∧
        (applyInto q' cs text true).run = (.ok { clean := cs.length }, bytesOf l) := by
    intro hs
    have hso := standInOrder_of_stands ho (Nat.zero_le l.length) (fun c _ => Nat.zero_le _) hs
    have ht := hd'.transplant hso (text := patchedFrom l 0 0 cs) List.drop_zero (Nat.zero_le _)
    have hg := hd'.growth ht
    have hi : IsDiff l (patchedFrom l 0 0 cs) cs := ⟨⟨_, ht⟩, hd.ctx⟩
    obtain ⟨-, -, hback⟩ := hi.retarget
    refine ⟨patchedFrom l 0 0 cs, by rw [apply_to_source q hi (by omega) (by omega), WM.run_emit], by omega,
      alreadyApplied_of_isDiff q' (by omega) (by omega) hi, ?_⟩
    have := apply_to_source q' hi.swap (by omega) (by omega)
    rw [Swap.applyAll, hback, List.length_map] at this
    rw [show (true : Bool) = !false from rfl, this, WM.run_emit]
  refine ⟨⟨?_, fun hs => ?_⟩, main⟩
  · intro hr c hc
    have hp := (C57_refines q l cs hw hsz _ _).1 rfl
    have := (hp.clean_stands hr).2 (by simp) c hc
    rwa [Int.add_zero] at this
  · obtain ⟨text, e, -⟩ := main hs
    rw [e]

end

/-- A file that is not the source of the patch. -/
example : ∃ cs, diffClumps .debug (letters ['a', 'b', 'c', 'd', 'e']) (letters ['a', 'b', 'X', 'Y', 'c', 'd', 'e']) 1 = .ok cs ∧
    cs.length = 1 ∧ (∀ c ∈ cs, standsB c.before.items (letters ['0', 'b', 'c', '1', '2', '3']) c.before.start = true) ∧
    (applyInto .debug cs (letters ['0', 'b', 'c', '1', '2', '3']) false).run =
      (.ok { clean := 1 }, bytesOf (letters ['0', 'b', 'X', 'Y', 'c', '1', '2', '3'])) :=
  ⟨[⟨(1, 1), ⟨1, letters ['b', 'c']⟩, ⟨1, letters ['b', 'X', 'Y', 'c']⟩⟩], by decide +kernel⟩

/-- Byte patches: where the old bytes of every clump are found, the patch can be taken back. -/
theorem C83_bytes (p q q' : Profile) (before after : List UInt8) (context : Nat) (hctx : context ≤ 255)
    (cs : List (DiffClump UInt8)) (h : diffClumps p before after context = .ok cs) (hne : ∀ c ∈ cs, c.after.items ≠ [])
    (l : List UInt8) (hsz : 3 * l.length + 3 * after.length < wordSize) (hs : ∀ c ∈ cs, FoundIn l c.before) :
    ∃ bytes, (byteApplyInto q cs l false).run = (.ok (), bytes) ∧ bytes.length + before.length = l.length + after.length ∧
      byteAlreadyApplied q' bytes false cs = .ok true ∧ (byteApplyInto q' cs bytes true).run = (.ok (), l) := by
  have hd := (diffClumps_full hctx h).1
  obtain ⟨skip, hd'⟩ := hd.diffed
  have ho := oldInOrder_of_stand hd'.standInOrder
  have hso := standInOrder_of_stands ho (Nat.zero_le l.length) (fun c _ => Nat.zero_le _) (fun c hc => (hs c hc).2)
  have ht := hd'.transplant hso (text := patchedFrom l 0 0 cs) List.drop_zero (Nat.zero_le _)
  have hg := hd'.growth ht
  have hi : IsDiff l (patchedFrom l 0 0 cs) cs := ⟨⟨_, ht⟩, hd.ctx⟩
  obtain ⟨-, -, hback⟩ := hi.retarget
  have hin : ∀ c ∈ cs, c.after.start < (patchedFrom l 0 0 cs).length := by
    intro c hc
    have h1 := ht.bounds.2.2.2 c hc
    have h2 := List.length_pos_iff.2 (hne c hc)
    omega
  refine ⟨patchedFrom l 0 0 cs, ?_, by omega, ?_, ?_⟩
  · rw [byte_to_source q hi (by omega) (fun c hc => (hs c hc).1), WM.run_emit]
  · obtain ⟨b, e1, e2⟩ := byteAlreadyApplied_spec q' (patchedFrom l 0 0 cs) cs
    rw [e1, e2.2]
    exact fun c hc => ⟨hin c hc, (ht.stands c hc).2⟩
  · have := byte_to_source q' hi.swap (by omega) (by
      intro c hc
      obtain ⟨c', hc', rfl⟩ := List.mem_map.1 hc
      exact hin c' hc')
    rw [byteApply_swap, hback] at this
    rw [show (true : Bool) = !false from rfl, this, WM.run_emit]

/-- A content that is not the source of the patch. -/
example : ∃ cs, diffClumps .debug [1, 2, 3, 4, 5] [1, 2, 8, 9, 3, 4, 5] 1 = .ok cs ∧ (∀ c ∈ cs, c.after.items ≠ []) ∧
    (∀ c ∈ cs, c.before.start < 6 ∧ standsB c.before.items [0, 2, 3, 7, 7, 7] c.before.start = true) ∧
    (byteApplyInto .debug cs [0, 2, 3, 7, 7, 7] false).run = (.ok (), [0, 2, 8, 9, 3, 7, 7, 7]) :=
  ⟨[⟨(1, 1), ⟨1, [2, 3]⟩, ⟨1, [2, 8, 9, 3]⟩⟩], by decide +kernel⟩

/-! ## C84 -/

/-- The full statement of C84. -/
def C84_statement : Prop :=
  ∀ (p q : Profile) (before after : List UInt8) (context : Nat) (cs : List (DiffClump UInt8)), context ≤ 255 →
    diffClumps p before after context = .ok cs →
    ∀ (l out : List UInt8), (byteApplyInto q cs l false).run = (.ok (), out) → ByteSpliced l 0 cs out

/-- A byte that occurs in no clump is written as often as it occurs. -/
theorem ByteSpliced.count {l : List UInt8} {k : Nat} {cs : List (DiffClump UInt8)} {out : List UInt8} (h : ByteSpliced l k cs out)
    (x : UInt8) (hx : ∀ c ∈ cs, x ∉ c.before.items) : (l.drop k).count x ≤ out.count x := by
  induction h with
  | rest => exact Nat.le_refl _
  | @replaced k c cs out h1 h2 _ ih =>
    have i := ih (fun c h => hx c (by simp [h]))
    obtain ⟨-, s2, s3⟩ := (standsAt_iff _ _ _).1 h2
    simp only [Int.toNat_natCast] at s2 s3
    have e1 : l.drop k = cut l k c.before.start ++ l.drop c.before.start := by
      rw [← cut_length_eq, ← cut_append _ h1 (by omega), cut_length_eq]
    have e2 : l.drop c.before.start = c.before.items ++ l.drop (c.before.start + c.before.items.length) := by
      conv => rhs; lhs; rw [← s3]
      rw [← cut_length_eq, ← cut_length_eq, cut_append _ (by omega) (by omega)]
    have e3 : c.before.items.count x = 0 := List.count_eq_zero.2 (hx c (by simp))
    rw [e1, e2]
    simp only [List.count_append]
    omega
  | unchanged _ ih => exact ih (fun c h => hx c (by simp [h]))

/-- It fails: the first clump is already applied, and the old bytes of the second are also found in the part of the file that has been
dealt with; as many bytes of the rest of the file are dropped. -/
theorem C84_refuted : ¬ C84_statement := by
  intro h
  have := h .debug .debug [1, 5, 6, 7, 8] [2, 3, 4, 7, 8, 9, 5, 6, 7, 0] 1
    [⟨(0, 1), ⟨0, [1, 5]⟩, ⟨0, [2, 3, 4, 7, 8, 9, 5]⟩⟩, ⟨(1, 0), ⟨3, [7, 8]⟩, ⟨8, [7, 0]⟩⟩] (by decide) (by decide +kernel)
    [2, 3, 4, 7, 8, 9, 5, 6, 7, 8] [2, 3, 4, 7, 8, 9, 5, 7, 0, 8] (by decide +kernel)
  have := this.count 6 (by decide)
  revert this
  decide

theorem byteSpliced_of_patching {l : List UInt8} {k : Nat} {cs : List (DiffClump UInt8)} {out : List UInt8} {r : Outcome Unit}
    (h : BytePatching l k cs out r) (hr : r = .ok ()) (ho : OldInOrder cs) (hk : ∀ c ∈ cs.head?, k ≤ c.before.start)
    (hn : ∀ c ∈ cs, FoundIn l c.after → FoundIn l c.before) : ByteSpliced l k cs out := by
  have tl : ∀ {c : DiffClump UInt8} {cs : List (DiffClump UInt8)}, OldInOrder (c :: cs) → OldInOrder cs ∧
      ∀ d ∈ cs.head?, c.before.start + c.before.items.length ≤ d.before.start := by
    intro c cs h
    cases cs with
    | nil => exact ⟨trivial, by simp⟩
    | cons d cs =>
      refine ⟨h.2, ?_⟩
      intro d' hd'
      simp only [List.head?_cons, Option.mem_def, Option.some.injEq] at hd'
      subst hd'
      exact h.1
  induction h with
  | finish => exact .rest
  | overrun => cases hr
  | @apply k c cs out r hf _ ih =>
    have h1 := hk c (by simp)
    have e : max k c.before.start = c.before.start := by omega
    rw [e] at ih
    exact .replaced h1 hf.2 (ih hr (tl ho).1 (tl ho).2 (fun c h => hn c (by simp [h])))
  | already h1 h2 => exact (h1 (hn _ (by simp) h2)).elim
  | @skip k c cs out r h1 h2 _ ih =>
    refine .unchanged (ih hr (tl ho).1 ?_ (fun c h => hn c (by simp [h])))
    intro d hd
    have := (tl ho).2 d hd
    have := hk c (by simp)
    omega

/-- What holds: if no clump is taken for already applied, nothing is lost. -/
theorem C84_partial (p q : Profile) (before after : List UInt8) (context : Nat) (hctx : context ≤ 255)
    (cs : List (DiffClump UInt8)) (h : diffClumps p before after context = .ok cs) (l out : List UInt8)
    (hsz : l.length + before.length + after.length < wordSize)
    (hr : (byteApplyInto q cs l false).run = (.ok (), out)) (hn : ∀ c ∈ cs, FoundIn l c.after → FoundIn l c.before) :
    ByteSpliced l 0 cs out := by
  have hd := (diffClumps_full hctx h).1
  have hwt := hd.weight
  obtain ⟨skip, hd'⟩ := hd.diffed
  exact byteSpliced_of_patching ((C60_refines q l cs (by omega) out (.ok ())).1 hr) rfl (oldInOrder_of_stand hd'.standInOrder)
    (fun c _ => Nat.zero_le _) hn

/-- A patch of two clumps of which only the second is found. -/
example : ∃ cs, diffClumps .debug [1, 2, 3, 4, 5, 6] [1, 9, 2, 3, 4, 5, 8, 8, 6] 1 = .ok cs ∧ cs.length = 2 ∧
    (∀ c ∈ cs, standsB c.after.items [0, 0, 0, 0, 5, 6, 7] c.after.start = false) ∧
    (byteApplyInto .debug cs [0, 0, 0, 0, 5, 6, 7] false).run = (.ok (), [0, 0, 0, 0, 5, 8, 8, 6, 7]) :=
  ⟨[⟨(1, 1), ⟨0, [1, 2]⟩, ⟨0, [1, 9, 2]⟩⟩, ⟨(1, 1), ⟨4, [5, 6]⟩, ⟨5, [5, 8, 8, 6]⟩⟩], by decide +kernel⟩

/-- What has been spliced from a later byte on, with the bytes before it. -/
theorem ByteSpliced.earlier {l : List UInt8} {k m : Nat} {cs : List (DiffClump UInt8)} {out : List UInt8} (h : ByteSpliced l m cs out)
    (hk : k ≤ m) : ByteSpliced l k cs (cut l k m ++ out) := by
  induction h with
  | rest =>
    rw [← drop_split hk]
    exact .rest
  | @replaced m c cs out h1 h2 h3 _ =>
    have : cut l k m ++ cut l m c.before.start = cut l k c.before.start := by
      unfold cut
      rw [show c.before.start - k = (m - k) + (c.before.start - m) by omega, List.take_add, List.drop_drop,
        show k + (m - k) = m by omega]
    rw [← List.append_assoc, ← List.append_assoc, this]
    exact .replaced (by omega) h2 h3
  | unchanged _ ih => exact .unchanged (ih hk)

theorem byteSpliced_of_patching_new {l : List UInt8} {k : Nat} {cs : List (DiffClump UInt8)} {out : List UInt8} {r : Outcome Unit}
    (h : BytePatching l k cs out r) (hr : r = .ok ()) (ho : OldInOrder cs) (hn : NewInOrder cs) (hk : ∀ c ∈ cs.head?, k ≤ c.before.start) :
    ByteSpliced l k cs out := by
  have tl : ∀ {c : DiffClump UInt8} {cs : List (DiffClump UInt8)}, OldInOrder (c :: cs) → OldInOrder cs ∧
      ∀ d ∈ cs.head?, c.before.start + c.before.items.length ≤ d.before.start := by
    intro c cs h
    cases cs with
    | nil => exact ⟨trivial, by simp⟩
    | cons d cs =>
      refine ⟨h.2, ?_⟩
      intro d' hd'
      simp only [List.head?_cons, Option.mem_def, Option.some.injEq] at hd'
      subst hd'
      exact h.1
  induction h with
  | finish => exact .rest
  | overrun => cases hr
  | @apply k c cs out r hf _ ih =>
    have h1 := hk c (by simp)
    have e : max k c.before.start = c.before.start := by omega
    rw [e] at ih
    exact .replaced h1 hf.2 (ih hr (tl ho).1 hn.tail (tl ho).2)
  | @already k c cs out r h1 h2 _ ih =>
    have h3 := hk c (by simp)
    have hcut : cut l k (c.after.start + c.after.items.length) = cut l k (max k (c.after.start + c.after.items.length)) := by
      by_cases hle : k ≤ c.after.start + c.after.items.length
      · rw [Nat.max_eq_right hle]
      · rw [Nat.max_eq_left (by omega)]
        unfold cut
        rw [show c.after.start + c.after.items.length - k = 0 by omega, Nat.sub_self]
    rw [hcut]
    refine .unchanged ((ih hr (tl ho).1 hn.tail ?_).earlier (by omega))
    intro d hd
    have := (tl ho).2 d hd
    have : c.after.start + c.after.items.length ≤ d.before.start := by
      cases cs with
      | nil => cases hd
      | cons d' cs =>
        cases hd
        exact hn.1
    omega
  | @skip k c cs out r h1 h2 _ ih =>
    refine .unchanged (ih hr (tl ho).1 hn.tail ?_)
    intro d hd
    have := (tl ho).2 d hd
    have := hk c (by simp)
    omega

/-- Whatever counts as already applied, nothing is lost either by a patch none of whose clumps puts in more bytes than it takes out. -/
theorem C84_shorter (p q : Profile) (before after : List UInt8) (context : Nat) (hctx : context ≤ 255)
    (cs : List (DiffClump UInt8)) (h : diffClumps p before after context = .ok cs)
    (hlen : ∀ c ∈ cs, c.after.items.length ≤ c.before.items.length) (l out : List UInt8)
    (hsz : l.length + before.length + after.length < wordSize) (hr : (byteApplyInto q cs l false).run = (.ok (), out)) :
    ByteSpliced l 0 cs out := by
  have hd := (diffClumps_full hctx h).1
  have hwt := hd.weight
  obtain ⟨skip, hd'⟩ := hd.diffed
  exact byteSpliced_of_patching_new ((C60_refines q l cs (by omega) out (.ok ())).1 hr) rfl (oldInOrder_of_stand hd'.standInOrder)
    (newInOrder_of_diffed hd' (Nat.le_refl _) hlen) (fun c _ => Nat.zero_le _)

/-- The first clump has already been applied, the second one is applied. -/
example : ∃ cs, diffClumps .debug [1, 2, 3, 4, 5, 6, 7, 7, 8] [1, 9, 4, 5, 6, 0, 8] 1 = .ok cs ∧
    (∀ c ∈ cs, c.after.items.length ≤ c.before.items.length) ∧
    (byteApplyInto .debug cs [1, 9, 4, 0, 0, 6, 7, 7, 8] false).run = (.ok (), [1, 9, 4, 0, 0, 6, 0, 8]) :=
  ⟨[⟨(1, 1), ⟨0, [1, 2, 3, 4]⟩, ⟨0, [1, 9, 4]⟩⟩, ⟨(1, 1), ⟨5, [6, 7, 7, 8]⟩, ⟨4, [6, 0, 8]⟩⟩], by decide +kernel⟩

end PwDiff
