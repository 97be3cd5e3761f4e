import Verif.Proofs.Changes
import Verif.Model.ApplyText

/-! # Grouping the changes into clumps -/

namespace PwDiff

variable {T : Type}

@[simp] theorem reals_nil : reals [] = [] := rfl

theorem reals_append (xs ys : List Change) : reals (xs ++ ys) = reals xs ++ reals ys := by simp [reals]

theorem reals_noChange (c : CommonSubsequence) (xs : List Change) : reals (.noChange c :: xs) = reals xs := by
  simp [reals, Change.isNoChange]

theorem reals_real (c : Change) (h : c.isNoChange = false) (xs : List Change) : reals (c :: xs) = c :: reals xs := by
  simp [reals, h]

theorem Tiles.cons_head {i j ie je : Nat} {c : Change} {cs : List Change} (h : Tiles i j (c :: cs) ie je) :
    Tiles i j [c] c.old.fin c.new.fin ∧ Tiles c.old.fin c.new.fin cs ie je :=
  ⟨⟨h.1, h.2.1, h.2.2.1, h.2.2.2.1, rfl, rfl⟩, h.2.2.2.2⟩

theorem Alternating.tail {c : Change} {cs : List Change} (h : Alternating (c :: cs)) : Alternating cs := by
  cases cs with
  | nil => trivial
  | cons d cs => exact h.2

theorem Alternating.headReal {c : CommonSubsequence} {cs : List Change} (h : Alternating (.noChange c :: cs)) :
    HeadReal cs := by
  cases cs with
  | nil => simp [HeadReal]
  | cons d cs =>
    have := h.1
    cases d <;> simp_all [HeadReal, Change.isNoChange]

/-- What the context of a clump may be skipped from. -/
def Skip (all : List Change) (g : CommonSubsequence) : Prop := g.n = 0 ∨ ∃ c, .noChange c ∈ all ∧ SubBlock g c

/-- The outcome of one round of the iterator's loop. -/
structure LoopSpec (ctx : Nat) (all : List Change) (i0 j0 ie je : Nat) (acc iter out : List Change) (s' : ClumpIter) : Prop where
  tiled : ∃ i1 j1, Tiles i0 j0 out i1 j1 ∧
    ((s' = ⟨[], none⟩ ∧ ∃ n, i1 + n = ie ∧ j1 + n = je ∧ Skip all ⟨i1, j1, n⟩) ∨
     (∃ tail, s'.stash = some tail ∧ s'.iter ≠ [] ∧ HeadReal s'.iter ∧ Alternating s'.iter ∧ tail.n ≤ ctx ∧
        s'.iter.length < iter.length ∧ (∀ c ∈ s'.iter, c ∈ all) ∧
        Tiles (tail.b + tail.n) (tail.a + tail.n) s'.iter ie je ∧
        ∃ n, i1 + n = tail.b ∧ j1 + n = tail.a ∧ Skip all ⟨i1, j1, n⟩))
  real : reals out ≠ []
  sameReals : reals out ++ reals s'.iter = reals acc ++ reals iter
  head : out.head? = acc.head?
  last : ChangeClump.contextOf out.getLast? ≤ ctx

theorem contextOf_real {c : Change} (h : c.isNoChange = false) : ChangeClump.contextOf (some c) = 0 := by
  cases c <;> simp_all [ChangeClump.contextOf, Change.isNoChange]

theorem clumpLoop_spec (ctx : Nat) (all : List Change) (ie je : Nat) (iter acc : List Change) (i0 j0 i j : Nat)
    (hall : ∀ c ∈ iter, c ∈ all) (hne : acc ≠ []) (hacc : Tiles i0 j0 acc i j) (hit : Tiles i j iter ie je)
    (halt : Alternating iter)
    (hp : (∃ c, acc.getLast? = some c ∧ c.isNoChange = false) ∨ (iter ≠ [] ∧ HeadReal iter)) :
    LoopSpec ctx all i0 j0 ie je acc iter (clumpLoop ctx iter acc).1 (clumpLoop ctx iter acc).2 := by
  induction iter generalizing acc i j with
  | nil =>
    obtain ⟨rfl, rfl⟩ := hit
    rcases hp with ⟨c, h1, h2⟩ | ⟨h1, -⟩
    · refine ⟨⟨i, j, hacc, .inl ⟨rfl, 0, rfl, rfl, .inl rfl⟩⟩, ?_, by simp [clumpLoop], rfl, ?_⟩
      · obtain ⟨ys, rfl⟩ := List.getLast?_eq_some_iff.1 h1
        simp [clumpLoop, reals_append, reals_real c h2]
      · simp only [clumpLoop]
        rw [h1, contextOf_real h2]; omega
    · exact absurd rfl h1
  | cons c rest ih =>
    obtain ⟨t1, t2⟩ := hit.cons_head
    have hall' : ∀ c ∈ rest, c ∈ all := fun x hx => hall x (List.mem_cons_of_mem _ hx)
    cases hc : c.isNoChange with
    | false =>
      have step : clumpLoop ctx (c :: rest) acc = clumpLoop ctx rest (acc ++ [c]) := by
        cases c <;> simp_all [clumpLoop, Change.isNoChange]
      rw [step]
      have := ih (acc ++ [c]) c.old.fin c.new.fin hall' (by simp) (hacc.append t1) t2 halt.tail
        (.inl ⟨c, by simp, hc⟩)
      refine ⟨?_, this.real, ?_, ?_, this.last⟩
      · obtain ⟨i1, j1, h1, h2⟩ := this.tiled
        refine ⟨i1, j1, h1, h2.imp id ?_⟩
        rintro ⟨tail, a1, a2, a3, a4, a5, a6, a7⟩
        exact ⟨tail, a1, a2, a3, a4, a5, by simp; omega, a7⟩
      · rw [this.sameReals, reals_append, reals_real c hc, reals_real c hc]; simp
      · rw [this.head]
        cases acc with
        | nil => exact absurd rfl hne
        | cons a acc => rfl
    | true =>
      cases c with
      | delete _ _ => simp [Change.isNoChange] at hc
      | insert _ _ => simp [Change.isNoChange] at hc
      | replace _ _ => simp [Change.isNoChange] at hc
      | noChange cs =>
        have hlast : ∃ c, acc.getLast? = some c ∧ c.isNoChange = false := by
          rcases hp with h | ⟨-, h⟩
          · exact h
          · exact absurd (h (.noChange cs) (by simp)) (by simp [Change.isNoChange])
        have hreal : reals acc ≠ [] := by
          obtain ⟨c, h1, h2⟩ := hlast
          obtain ⟨ys, rfl⟩ := List.getLast?_eq_some_iff.1 h1
          simp [reals_append, reals_real c h2]
        have hempty : acc.isEmpty = false := by cases acc <;> simp_all
        have hcs : (.noChange cs : Change) ∈ all := hall _ (by simp)
        obtain ⟨e1, e2, e3, e4, -⟩ := hit
        simp only [Change.old, Change.new] at e1 e2 t2
        have headApp : ∀ x, (acc ++ [x]).head? = acc.head? := by
          intro x
          cases acc with
          | nil => exact absurd rfl hne
          | cons a acc => rfl
        have trimmed : Tiles i j [.noChange (cs.endsTrimmed ctx)] (i + min cs.n ctx) (j + min cs.n ctx) := by
          simp [Tiles, Change.old, Change.new, CommonSubsequence.endsTrimmed, e1, e2]
        cases hr : rest with
        | nil =>
          subst hr
          have step : clumpLoop ctx [.noChange cs] acc = (acc ++ [.noChange (cs.endsTrimmed ctx)], ⟨[], none⟩) := by
            simp [clumpLoop, hempty]
          rw [step]
          obtain ⟨f1, f2⟩ := t2
          refine ⟨⟨i + min cs.n ctx, j + min cs.n ctx, hacc.append trimmed, .inl ⟨rfl, cs.n - min cs.n ctx, ?_, ?_, ?_⟩⟩,
            ?_, ?_, headApp _, ?_⟩
          · omega
          · omega
          · right
            exact ⟨cs, hcs, by simp only; omega, by simp only; omega, by simp only; omega⟩
          · rw [reals_append, reals_noChange]; simpa using hreal
          · simp [reals_append, reals_noChange]
          · simp [ChangeClump.contextOf, CommonSubsequence.len, CommonSubsequence.endsTrimmed]; omega
        | cons d rest' =>
          have hreal' : HeadReal rest := halt.headReal
          by_cases hsp : cs.n ≥ ctx * 2
          · have step : clumpLoop ctx (.noChange cs :: d :: rest') acc =
                (acc ++ [.noChange (cs.endsTrimmed ctx)], ⟨d :: rest', some (cs.startsTrimmed ctx)⟩) := by
              simp [clumpLoop, hempty, CommonSubsequence.split, hsp]
            rw [step]
            rw [hr] at t2 hreal' halt hall'
            refine ⟨⟨i + min cs.n ctx, j + min cs.n ctx, hacc.append trimmed, .inr ⟨cs.startsTrimmed ctx, rfl, by simp,
              hreal', halt.tail, ?_, ?_, hall', ?_, cs.n - 2 * ctx, ?_, ?_, ?_⟩⟩, ?_, ?_, headApp _, ?_⟩
            · simp [CommonSubsequence.startsTrimmed]; omega
            · simp
            · simp only [CommonSubsequence.startsTrimmed]
              rw [show cs.b + cs.n - min cs.n ctx + min cs.n ctx = cs.b + cs.n by omega,
                show cs.a + cs.n - min cs.n ctx + min cs.n ctx = cs.a + cs.n by omega]
              exact t2
            · simp only [CommonSubsequence.startsTrimmed]; omega
            · simp only [CommonSubsequence.startsTrimmed]; omega
            · right
              exact ⟨cs, hcs, by simp only; omega, by simp only; omega, by simp only; omega⟩
            · rw [reals_append, reals_noChange]; simpa using hreal
            · rw [reals_append, reals_noChange, reals_noChange]; simp
            · simp [ChangeClump.contextOf, CommonSubsequence.len, CommonSubsequence.endsTrimmed]; omega
          · have step : clumpLoop ctx (.noChange cs :: d :: rest') acc = clumpLoop ctx (d :: rest') (acc ++ [.noChange cs]) := by
              simp [clumpLoop, hempty, CommonSubsequence.split, hsp]
            rw [step, ← hr]
            have := ih (acc ++ [.noChange cs]) (cs.b + cs.n) (cs.a + cs.n) hall' (by simp) (hacc.append t1) t2 halt.tail
              (.inr ⟨by rw [hr]; simp, hreal'⟩)
            refine ⟨?_, this.real, ?_, ?_, this.last⟩
            · obtain ⟨i1, j1, h1, h2⟩ := this.tiled
              refine ⟨i1, j1, h1, h2.imp id ?_⟩
              rintro ⟨tail, a1, a2, a3, a4, a5, a6, a7⟩
              exact ⟨tail, a1, a2, a3, a4, a5, by simp; omega, a7⟩
            · rw [this.sameReals, reals_append, reals_noChange, reals_noChange]; simp
            · rw [this.head, headApp]

/-- What is known about each clump. -/
structure ClumpOk (ctx : Nat) (c : ChangeClump) : Prop where
  real : reals c.changes ≠ []
  lead : ChangeClump.contextOf c.changes.head? ≤ ctx
  trail : ChangeClump.contextOf c.changes.getLast? ≤ ctx

/-- The clumps cover both sequences from `(i, j)` to `(ie, je)` except for skipped stretches. -/
def ClumpsCover (skip : CommonSubsequence → Prop) : Nat → Nat → List ChangeClump → Nat → Nat → Prop
  | i, j, [], ie, je => ∃ n, i + n = ie ∧ j + n = je ∧ skip ⟨i, j, n⟩
  | i, j, c :: cs, ie, je => ∃ n i' j', skip ⟨i, j, n⟩ ∧ Tiles (i + n) (j + n) c.changes i' j' ∧
      ClumpsCover skip i' j' cs ie je

structure CollectSpec (ctx : Nat) (all : List Change) (i j ie je : Nat) (iter : List Change) (out : List ChangeClump) : Prop where
  cover : ClumpsCover (Skip all) i j out ie je
  each : ∀ c ∈ out, ClumpOk ctx c
  sameReals : out.flatMap (fun c => reals c.changes) = reals iter

theorem clumpNext_done (ctx : Nat) : clumpNext ctx ⟨[], none⟩ = (none, ⟨[], none⟩) := by
  simp [clumpNext, clumpLoop]

/-- Collecting from a state in the middle: `initial` is what the next clump starts with. -/
theorem clumpCollect_from (ctx : Nat) (all : List Change) (ie je : Nat) (fuel : Nat) (s : ClumpIter)
    (initial iter : List Change) (i j i0 j0 i1 j1 : Nat)
    (hnext : clumpNext ctx s = (some ⟨(clumpLoop ctx iter initial).1⟩, (clumpLoop ctx iter initial).2))
    (hf : iter.length + 2 ≤ fuel)
    (hall : ∀ c ∈ iter, c ∈ all) (hne : initial ≠ []) (hacc : Tiles i0 j0 initial i1 j1) (hit : Tiles i1 j1 iter ie je)
    (halt : Alternating iter)
    (hp : (∃ c, initial.getLast? = some c ∧ c.isNoChange = false) ∨ (iter ≠ [] ∧ HeadReal iter))
    (hhead : ChangeClump.contextOf initial.head? ≤ ctx)
    (hgap : ∃ n, i + n = i0 ∧ j + n = j0 ∧ Skip all ⟨i, j, n⟩) :
    ∃ out, clumpCollect ctx fuel s = .ok out ∧ CollectSpec ctx all i j ie je (initial ++ iter) out := by
  induction fuel generalizing s initial iter i j i0 j0 i1 j1 with
  | zero => omega
  | succ fuel ih =>
    have sp := clumpLoop_spec ctx all ie je iter initial i0 j0 i1 j1 hall hne hacc hit halt hp
    rw [clumpCollect, hnext]
    simp only
    generalize (clumpLoop ctx iter initial).1 = out at sp ⊢
    generalize (clumpLoop ctx iter initial).2 = s' at sp ⊢
    obtain ⟨n, g1, g2, g3⟩ := hgap
    subst g1 g2
    have hok : ClumpOk ctx ⟨out⟩ := ⟨sp.real, by rw [sp.head]; exact hhead, sp.last⟩
    obtain ⟨k1, k2, h1, h2⟩ := sp.tiled
    rcases h2 with ⟨rfl, m, h3, h4, h5⟩ | ⟨tail, a1, a2, a3, a4, a5, a6, a7, a8, m, h3, h4, h5⟩
    · refine ⟨[⟨out⟩], ?_, ?_⟩
      · have : clumpCollect ctx fuel ⟨[], none⟩ = .ok [] := by
          cases fuel with
          | zero => omega
          | succ f => rw [clumpCollect, clumpNext_done]
        rw [this]; rfl
      · refine ⟨⟨n, k1, k2, g3, h1, m, h3, h4, h5⟩, by simpa using hok, ?_⟩
        have := sp.sameReals
        simp at this
        simp [this, reals_append]
    · obtain ⟨iter', stash'⟩ := s'
      simp only at a1 a2 a3 a4 a6 a7 a8
      subst a1
      have spTail := clumpLoop_spec ctx all ie je iter' [.noChange tail] tail.b tail.a (tail.b + tail.n) (tail.a + tail.n) a7
        (by simp) (by simp [Tiles, Change.old, Change.new]) a8 a4 (.inr ⟨a2, a3⟩)
      obtain ⟨o, e1, e2⟩ := ih ⟨iter', some tail⟩ [.noChange tail] iter' k1 k2 tail.b tail.a (tail.b + tail.n) (tail.a + tail.n)
        (by
          unfold clumpNext
          have hne : (clumpLoop ctx iter' [.noChange tail]).1.isEmpty = false := by
            have := spTail.head
            cases h : (clumpLoop ctx iter' [.noChange tail]).1 with
            | nil => rw [h] at this; simp at this
            | cons => rfl
          simp [hne])
        (by omega) a7 (by simp) (by simp [Tiles, Change.old, Change.new]) a8 a4 (.inr ⟨a2, a3⟩)
        (by simpa [ChangeClump.contextOf, CommonSubsequence.len] using a5) ⟨m, h3, h4, h5⟩
      refine ⟨⟨out⟩ :: o, ?_, ?_⟩
      · rw [e1]; rfl
      · refine ⟨⟨n, k1, k2, g3, h1, e2.cover⟩, ?_, ?_⟩
        · intro c hc
          rcases List.mem_cons.1 hc with rfl | hc
          · exact hok
          · exact e2.each c hc
        · have := e2.sameReals
          simp only [List.flatMap_cons, this]
          rw [List.cons_append, List.nil_append, reals_noChange, sp.sameReals, reals_append]

/-- The whole iterator. -/
theorem changeClumps_spec (ctx : Nat) (changes : List Change) (ie je : Nat) (ht : Tiles 0 0 changes ie je)
    (halt : Alternating changes) :
    ∃ out, changeClumps ctx changes = .ok out ∧ CollectSpec ctx changes 0 0 ie je changes out := by
  unfold changeClumps
  have none_case : ∀ (l : List Change), (clumpLoop ctx l []) = ([], ⟨[], none⟩) →
      clumpCollect ctx (l.length + 1) ⟨l, none⟩ = .ok [] := by
    intro l h
    rw [clumpCollect]
    simp [clumpNext, h]
  cases hch : changes with
  | nil =>
    subst hch
    refine ⟨[], none_case [] (by simp [clumpLoop]), ⟨0, ht.1, ht.2, .inl rfl⟩, by simp, by simp⟩
  | cons c rest =>
    rw [hch] at ht halt
    obtain ⟨t1, t2⟩ := ht.cons_head
    have hall : ∀ x ∈ rest, x ∈ c :: rest := fun x hx => List.mem_cons_of_mem _ hx
    have next_some : ∀ (initial : List Change), initial ≠ [] →
        clumpLoop ctx (c :: rest) [] = clumpLoop ctx rest initial → (clumpLoop ctx rest initial).1 ≠ [] →
        clumpNext ctx ⟨c :: rest, none⟩ = (some ⟨(clumpLoop ctx rest initial).1⟩, (clumpLoop ctx rest initial).2) := by
      intro initial _ h1 h2
      unfold clumpNext
      have : (clumpLoop ctx rest initial).1.isEmpty = false := by
        cases h : (clumpLoop ctx rest initial).1 with
        | nil => exact absurd h h2
        | cons => rfl
      simp [h1, this]
    have out_ne : ∀ (initial : List Change) (out : List Change), initial ≠ [] → out.head? = initial.head? → out ≠ [] := by
      intro initial out h1 h2 h3
      subst h3
      cases initial with
      | nil => exact h1 rfl
      | cons => simp at h2
    cases hc : c.isNoChange with
    | false =>
      have hacc : Tiles 0 0 [c] c.old.fin c.new.fin := t1
      have hp : (∃ d, [c].getLast? = some d ∧ d.isNoChange = false) ∨ (rest ≠ [] ∧ HeadReal rest) := .inl ⟨c, rfl, hc⟩
      have sp := clumpLoop_spec ctx (c :: rest) ie je rest [c] 0 0 _ _ hall (by simp) hacc t2 halt.tail hp
      obtain ⟨out, e1, e2⟩ := clumpCollect_from ctx (c :: rest) ie je ((c :: rest).length + 1) ⟨c :: rest, none⟩ [c] rest 0 0 0 0 _ _
        (next_some [c] (by simp) (by cases c <;> simp_all [clumpLoop, Change.isNoChange]) (out_ne _ _ (by simp) sp.head))
        (by simp) hall (by simp) hacc t2 halt.tail hp (by simp [contextOf_real hc]) ⟨0, rfl, rfl, .inl rfl⟩
      exact ⟨out, e1, e2⟩
    | true =>
      cases c with
      | delete _ _ => simp [Change.isNoChange] at hc
      | insert _ _ => simp [Change.isNoChange] at hc
      | replace _ _ => simp [Change.isNoChange] at hc
      | noChange cs =>
        obtain ⟨e1, e2, -⟩ := ht
        simp only [Change.old, Change.new] at e1 e2 t2
        cases hr : rest with
        | nil =>
          subst hr
          obtain ⟨f1, f2⟩ := t2
          refine ⟨[], none_case _ (by simp [clumpLoop]), ⟨cs.n, by omega, by omega, .inr ⟨cs, by simp, ?_⟩⟩, by simp, ?_⟩
          · refine ⟨?_, ?_, ?_⟩ <;> simp only <;> omega
          · simp [reals_noChange]
        | cons d rest' =>
          rw [← hr]
          have hrne : rest ≠ [] := by rw [hr]; simp
          have hacc : Tiles (cs.b + cs.n - min cs.n ctx) (cs.a + cs.n - min cs.n ctx) [.noChange (cs.startsTrimmed ctx)]
              (cs.b + cs.n) (cs.a + cs.n) := by
            simp [Tiles, Change.old, Change.new, CommonSubsequence.startsTrimmed]; omega
          have hp : (∃ d, [Change.noChange (cs.startsTrimmed ctx)].getLast? = some d ∧ d.isNoChange = false) ∨
              (rest ≠ [] ∧ HeadReal rest) := .inr ⟨hrne, halt.headReal⟩
          have sp := clumpLoop_spec ctx (.noChange cs :: rest) ie je rest [.noChange (cs.startsTrimmed ctx)] _ _ _ _ hall
            (by simp) hacc t2 halt.tail hp
          obtain ⟨out, g1, g2⟩ := clumpCollect_from ctx (.noChange cs :: rest) ie je ((Change.noChange cs :: rest).length + 1)
            ⟨.noChange cs :: rest, none⟩ [.noChange (cs.startsTrimmed ctx)] rest 0 0 _ _ _ _
            (next_some _ (by simp) (by simp [clumpLoop, hr]) (out_ne _ _ (by simp) sp.head))
            (by simp) hall (by simp) hacc t2 halt.tail hp
            (by simp [ChangeClump.contextOf, CommonSubsequence.len, CommonSubsequence.startsTrimmed]; omega)
            ⟨cs.n - min cs.n ctx, by omega, by omega, .inr ⟨cs, by simp, by simp only; omega, by simp only; omega, by simp only; omega⟩⟩
          refine ⟨out, g1, g2.cover, g2.each, ?_⟩
          rw [g2.sameReals]
          simp [reals_noChange]

/-! ## Ranges of a clump -/

theorem Change.starts_eq (c : Change) (rest : List Change) :
    (ChangeClump.starts ⟨c :: rest⟩) = (c.old.start, c.new.start) := by
  cases c <;> rfl

theorem Change.ends_eq (init : List Change) (c : Change) :
    (ChangeClump.ends ⟨init ++ [c]⟩) = (c.old.fin, c.new.fin) := by
  unfold ChangeClump.ends
  rw [List.getLast?_concat]
  cases c <;> rfl

theorem Tiles.snoc {i j ie je : Nat} {init : List Change} {c : Change} (h : Tiles i j (init ++ [c]) ie je) :
    c.old.fin = ie ∧ c.new.fin = je := by
  induction init generalizing i j with
  | nil => exact h.2.2.2.2
  | cons d init ih => exact ih h.2.2.2.2

/-- The ranges of a clump are what it tiles. -/
theorem Tiles.ranges {i j ie je : Nat} {c : ChangeClump} (h : Tiles i j c.changes ie je) (hne : c.changes ≠ []) :
    c.ranges = (⟨i, ie⟩, ⟨j, je⟩) := by
  obtain ⟨cs⟩ := c
  simp only at h hne
  have hs : ChangeClump.starts ⟨cs⟩ = (i, j) := by
    cases cs with
    | nil => exact absurd rfl hne
    | cons c cs => rw [Change.starts_eq, h.1, h.2.1]
  have he : ChangeClump.ends ⟨cs⟩ = (ie, je) := by
    obtain ⟨init, c, rfl⟩ := List.eq_nil_or_concat cs |>.resolve_left hne
    rw [List.concat_eq_append] at h ⊢
    obtain ⟨h1, h2⟩ := h.snoc
    rw [Change.ends_eq, h1, h2]
  simp [ChangeClump.ranges, hs, he]

/-- Both contexts fit into the clump. -/
theorem Tiles.context_fits {i j ie je : Nat} {cs : List Change} (h : Tiles i j cs ie je) (hr : reals cs ≠ []) :
    i + ChangeClump.contextOf cs.head? + ChangeClump.contextOf cs.getLast? ≤ ie ∧
      j + ChangeClump.contextOf cs.head? + ChangeClump.contextOf cs.getLast? ≤ je := by
  cases cs with
  | nil => simp at hr
  | cons c cs =>
    obtain ⟨h1, h2, h3, h4, h5⟩ := h
    have hhead : ∀ c : Change, c.old.start ≤ c.old.fin → c.new.start ≤ c.new.fin →
        c.old.start + ChangeClump.contextOf (some c) ≤ c.old.fin ∧
        c.new.start + ChangeClump.contextOf (some c) ≤ c.new.fin := by
      intro c h1 h2
      cases c <;> simp_all [ChangeClump.contextOf, Change.old, Change.new, CommonSubsequence.len]
    cases hcs : cs with
    | nil =>
      subst hcs
      have : c.isNoChange = false := by
        cases hc : c.isNoChange with
        | false => rfl
        | true => simp [reals, hc] at hr
      have hz := contextOf_real this
      have := hhead c h3 h4
      obtain ⟨h5, h6⟩ := h5
      simp [hz]; omega
    | cons d rest =>
      have hl : ∀ (cs : List Change) (i j : Nat), cs ≠ [] → Tiles i j cs ie je →
          i + ChangeClump.contextOf cs.getLast? ≤ ie ∧ j + ChangeClump.contextOf cs.getLast? ≤ je := by
        intro cs
        induction cs with
        | nil => intro i j h; exact absurd rfl h
        | cons e cs ih =>
          intro i j _ ht
          obtain ⟨g1, g2, g3, g4, g5⟩ := ht
          cases hcs : cs with
          | nil =>
            subst hcs
            obtain ⟨g5, g6⟩ := g5
            have := hhead e g3 g4
            simp only [List.getLast?_singleton]; omega
          | cons f cs' =>
            rw [List.getLast?_cons_cons, ← hcs]
            have := ih _ _ (by rw [hcs]; simp) g5
            omega
      have a := hl cs c.old.fin c.new.fin (by rw [hcs]; simp) h5
      have b := hhead c h3 h4
      rw [List.getLast?_cons_cons, ← hcs]
      simp only [List.head?_cons]
      omega

theorem ClumpsCover.synced {skip : CommonSubsequence → Prop} {i j ie je : Nat} {cs : List ChangeClump}
    (h : ClumpsCover skip i j cs ie je) (hne : ∀ c ∈ cs, c.changes ≠ []) :
    Synced skip i j (cs.map ChangeClump.ranges) ie je := by
  induction cs generalizing i j with
  | nil => exact h
  | cons c cs ih =>
    obtain ⟨n, i', j', h1, h2, h3⟩ := h
    have := h2.ranges (hne c (by simp))
    rw [List.map_cons, this]
    refine ⟨⟨n, rfl, rfl, h1⟩, ?_, ?_, ih h3 (fun c hc => hne c (List.mem_cons_of_mem _ hc))⟩
    · exact h2.le.1
    · exact h2.le.2

theorem ClumpsCover.le {skip : CommonSubsequence → Prop} {i j ie je : Nat} {cs : List ChangeClump}
    (h : ClumpsCover skip i j cs ie je) : i ≤ ie ∧ j ≤ je := by
  induction cs generalizing i j with
  | nil => obtain ⟨n, h1, h2, -⟩ := h; omega
  | cons c cs ih =>
    obtain ⟨n, i', j', h1, h2, h3⟩ := h
    have := ih h3
    have := h2.le
    omega

theorem ClumpOk.ne_nil {ctx : Nat} {c : ChangeClump} (h : ClumpOk ctx c) : c.changes ≠ [] := by
  intro he
  have := h.real
  rw [he] at this
  exact this rfl

/-! ## From change clumps to patch clumps -/

/-- The patch clump of a change clump. -/
def toDiffClump (before after : List T) (cc : ChangeClump) : DiffClump T :=
  ⟨cc.contextLengths, ⟨cc.ranges.1.start, cut before cc.ranges.1.start cc.ranges.1.fin⟩,
    ⟨cc.ranges.2.start, cut after cc.ranges.2.start cc.ranges.2.fin⟩⟩

theorem clumpsOfChangeClumps_eq (before after : List T) (ccs : List ChangeClump)
    (h : ∀ cc ∈ ccs, cc.ranges.1.Inside before ∧ cc.ranges.2.Inside after) :
    clumpsOfChangeClumps before after ccs = .ok (ccs.map (toDiffClump before after)) := by
  induction ccs with
  | nil => rfl
  | cons cc ccs ih =>
    obtain ⟨⟨h1, h2⟩, h3, h4⟩ := h cc (by simp)
    rw [clumpsOfChangeClumps, ih (fun c hc => h c (List.mem_cons_of_mem _ hc))]
    simp only [DiffClump.ofChangeClump, extractSnippet]
    rw [slice_ok h1 h2, slice_ok h3 h4]
    rfl

theorem Synced.inside {skip : CommonSubsequence → Prop} {i j ie je : Nat} {rs : List (Range × Range)}
    (h : Synced skip i j rs ie je) :
    i ≤ ie ∧ j ≤ je ∧ ∀ r ∈ rs, r.1.start ≤ r.1.fin ∧ r.1.fin ≤ ie ∧ r.2.start ≤ r.2.fin ∧ r.2.fin ≤ je := by
  induction rs generalizing i j with
  | nil => obtain ⟨n, h1, h2, -⟩ := h; exact ⟨by omega, by omega, by simp⟩
  | cons r rs ih =>
    obtain ⟨r, s⟩ := r
    obtain ⟨⟨n, h1, h2, -⟩, h3, h4, h5⟩ := h
    obtain ⟨g1, g2, g3⟩ := ih h5
    refine ⟨by omega, by omega, ?_⟩
    intro x hx
    rcases List.mem_cons.1 hx with rfl | hx
    · exact ⟨h3, g1, h4, g2⟩
    · exact g3 x hx

theorem Synced.diffed {skip : CommonSubsequence → Prop} {before after : List T} {i j : Nat} {ccs : List ChangeClump}
    (h : Synced skip i j (ccs.map ChangeClump.ranges) before.length after.length) :
    Diffed skip before after i j (ccs.map (toDiffClump before after)) before.length after.length := by
  induction ccs generalizing i j with
  | nil => exact h
  | cons cc ccs ih =>
    have hin := h.inside
    obtain ⟨-, h2⟩ := hin
    obtain ⟨-, h2⟩ := h2
    obtain ⟨b1, b2, b3, b4⟩ := h2 cc.ranges (by simp)
    obtain ⟨⟨n, g1, g2, g3⟩, g4, g5, g6⟩ := h
    have l1 : (toDiffClump before after cc).before.items.length = cc.ranges.1.fin - cc.ranges.1.start :=
      length_cut _ _ _ b2
    have l2 : (toDiffClump before after cc).after.items.length = cc.ranges.2.fin - cc.ranges.2.start :=
      length_cut _ _ _ b4
    have e1 : cc.ranges.1.start + (cc.ranges.1.fin - cc.ranges.1.start) = cc.ranges.1.fin := by omega
    have e2 : cc.ranges.2.start + (cc.ranges.2.fin - cc.ranges.2.start) = cc.ranges.2.fin := by omega
    rw [List.map_cons]
    refine ⟨⟨n, g1.symm, g2.symm, g3⟩, ?_, ?_, ?_⟩
    · rw [l1]; simp only [toDiffClump]; rw [e1]
    · rw [l2]; simp only [toDiffClump]; rw [e2]
    · rw [l1, l2]; simp only [toDiffClump]; rw [e1, e2]
      exact ih g6

/-- Everything later proofs need about the clumps of a diff. -/
theorem diffClumps_spec [DecidableEq T] [Item T] [LawfulItem T] (p : Profile) (before after : List T) (ctx : Nat) :
    ∃ changes ccs, changesOf p before after = .ok changes ∧ changeClumps ctx changes = .ok ccs ∧
      CollectSpec ctx changes 0 0 before.length after.length changes ccs ∧
      Synced (Skip changes) 0 0 (ccs.map ChangeClump.ranges) before.length after.length ∧
      diffClumps p before after ctx = .ok (ccs.map (toDiffClump before after)) := by
  obtain ⟨cs, h1, hg, -⟩ := changesOf_spec p before after
  obtain ⟨ccs, h2, h3⟩ := changeClumps_spec ctx (gen before after cs 0 0) _ _ (tiles_gen before after cs 0 0 hg.ordered)
    (alternating_gen before after cs 0 0 hg.ordered hg.apart).1
  have hs := h3.cover.synced (fun c hc => (h3.each c hc).ne_nil)
  refine ⟨_, ccs, h1, h2, h3, hs, ?_⟩
  unfold diffClumps
  rw [h1]
  simp only [Outcome.ok_bind]
  rw [h2]
  simp only [Outcome.ok_bind]
  apply clumpsOfChangeClumps_eq
  intro cc hcc
  have := hs.inside.2.2 cc.ranges (List.mem_map_of_mem hcc)
  exact ⟨⟨this.1, this.2.1⟩, ⟨this.2.2.1, this.2.2.2⟩⟩

/-- The context lengths stored in a clump of a diff with at most 255 lines of context are the true ones, and both
contexts fit into the clump on both sides. -/
theorem clump_context {ctx : Nat} (hctx : ctx ≤ 255) {cc : ChangeClump} (h : ClumpOk ctx cc) {i j ie je : Nat}
    (ht : Tiles i j cc.changes ie je) :
    cc.contextLengths = (ChangeClump.contextOf cc.changes.head?, ChangeClump.contextOf cc.changes.getLast?) ∧
      cc.contextLengths.1 ≤ ctx ∧ cc.contextLengths.2 ≤ ctx ∧
      i + cc.contextLengths.1 + cc.contextLengths.2 ≤ ie ∧ j + cc.contextLengths.1 + cc.contextLengths.2 ≤ je := by
  have e : cc.contextLengths = (ChangeClump.contextOf cc.changes.head?, ChangeClump.contextOf cc.changes.getLast?) := by
    have := h.lead
    have := h.trail
    unfold ChangeClump.contextLengths
    rw [Nat.mod_eq_of_lt (by omega), Nat.mod_eq_of_lt (by omega)]
  rw [e]
  exact ⟨rfl, h.lead, h.trail, ht.context_fits h.real⟩

theorem ClumpsCover.mem {skip : CommonSubsequence → Prop} {i j ie je : Nat} {cs : List ChangeClump}
    (h : ClumpsCover skip i j cs ie je) : ∀ c ∈ cs, ∃ i' j' ie' je', Tiles i' j' c.changes ie' je' := by
  induction cs generalizing i j with
  | nil => simp
  | cons c cs ih =>
    obtain ⟨n, i', j', h1, h2, h3⟩ := h
    intro d hd
    rcases List.mem_cons.1 hd with rfl | hd
    · exact ⟨_, _, _, _, h2⟩
    · exact ih h3 d hd

end PwDiff
