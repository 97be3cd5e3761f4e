import Verif.Props.Fuzzy

/-! # C79: no line is lost -/

namespace PwDiff

section

variable {T : Type} [Item T]

/-- The counters only grow. -/
theorem Patching.grows {p : Profile} {l : List T} {k : Nat} {offset : Int} {st st' : Statistics} {cs : List (DiffClump T)}
    {out : List UInt8} {r : Outcome Statistics} (h : Patching p l k offset st cs out r) (hr : r = .ok st') :
    st.alreadyApplied ≤ st'.alreadyApplied ∧ st.alreadyAppliedFuzzy ≤ st'.alreadyAppliedFuzzy := by
  induction h with
  | finish => cases hr; exact ⟨Nat.le_refl _, Nat.le_refl _⟩
  | overrun | crash | applyPanic => cases hr
  | apply _ _ _ ih =>
    have := ih hr
    simp only [Decision.count] at this
    split at this <;> exact this
  | already _ _ ih =>
    have := ih hr
    simp only [Decision.count] at this
    split at this <;> simp only at this <;> omega
  | failed _ _ ih => exact ih hr

/-- The old lines of every clump end before those of the next begin. -/
def OldInOrder : List (DiffClump T) → Prop
  | [] => True
  | [_] => True
  | c :: d :: cs => c.before.start + c.before.items.length ≤ d.before.start ∧ OldInOrder (d :: cs)

/-- The reductions of a clump do not meet the defect of C35: it starts at the first line, or so late that the attempt to
use them ends in a panic, or there are none. -/
def WritesRight (c : DiffClump T) : Prop :=
  c.after.start = 0 ∨ max c.contextLengths.1 c.contextLengths.2 ≤ max 1 c.after.start

omit [Item T] in
theorem written_trim {c : DiffClump T} {l : List T} {pos : Int} {w : WillApply} {ls : List T} (hr : WritesRight c)
    (hf : Fits c.before.items c.contextLengths l pos (some w)) (hw : writtenFor c.after w = some ls) :
    ls = trim w.redn c.after.items := by
  cases w with
  | cleanly =>
    simp only [writtenFor, Option.some.injEq] at hw
    subst hw
    simp [trim, WillApply.redn]
  | withReductions r =>
    obtain ⟨-, k, h1, h2, rfl, -, -⟩ := hf
    simp only [writtenFor] at hw
    split at hw
    · next hs =>
      simp only [Option.some.injEq] at hw
      have h0 : c.after.start = 0 := by
        simp only [redn] at hs
        rcases hr with h | h <;> omega
      rw [h0] at hw
      rw [← hw, trim_eq_cut]
      simp [WillApply.redn]
    · cases hw

omit [Item T] in
theorem fits_trim {old : List T} {ctx : Nat × Nat} {l : List T} {pos : Int} {w : WillApply} (h : Fits old ctx l pos (some w)) :
    StandsAt (trim w.redn old) l (pos + w.redn.1) := by
  cases w with
  | cleanly =>
    have : StandsAt old l pos := h
    simpa [trim, WillApply.redn] using this
  | withReductions r =>
    obtain ⟨-, k, h1, h2, rfl, h3, -⟩ := h
    exact h3

/-- The new lines of every clump end before the old ones of the next begin, by the numbers in the patch. -/
def NewInOrder : List (DiffClump T) → Prop
  | [] => True
  | [_] => True
  | c :: d :: cs => c.after.start + c.after.items.length ≤ d.before.start ∧ NewInOrder (d :: cs)

omit [Item T] in
theorem NewInOrder.tail {c : DiffClump T} {cs : List (DiffClump T)} (h : NewInOrder (c :: cs)) : NewInOrder cs := by
  cases cs with
  | nil => trivial
  | cons c' cs => exact h.2

theorem spliced_of_patching {p : Profile} {l : List T} {k : Nat} {offset : Int} {st st' : Statistics} {cs : List (DiffClump T)}
    {out : List UInt8} {r : Outcome Statistics} (h : Patching p l k offset st cs out r) (hr : r = .ok st')
    (hw : ∀ c ∈ cs, c.WellFormed) (hf : ∀ c ∈ cs, WritesRight c) (ho : OldInOrder cs) 
    (hn : NewInOrder cs ∨ (st'.alreadyApplied = 0 ∧ st'.alreadyAppliedFuzzy = 0))
    (hk : ∀ c, cs.head? = some c → (k : Int) ≤ c.before.start + offset) : Spliced l k cs out := by
  induction h with
  | finish h =>
    rw [cut_length_eq]
    exact .rest
  | overrun | crash | applyPanic => cases hr
  | @apply k offset st c cs d w ls out r hd hls _ ih =>
    have hpos : (k : Int) ≤ c.before.start + offset + d ∧ Fits c.before.items c.contextLengths l (c.before.start + offset + d) (some w) := by
      have hk' := hk c rfl
      rcases hd with ⟨rfl, hd⟩ | ⟨-, -, hb, hd, -⟩
      · rw [Int.add_zero]
        exact ⟨hk', hd⟩
      · refine ⟨?_, hd⟩
        rcases hb with ⟨-, hb⟩ | ⟨hb, -⟩ <;> omega
    obtain ⟨hp, hfit⟩ := hpos
    have hwf := hw c (by simp)
    obtain ⟨b1, b2, b3, b4⟩ := fits_some_bounds hwf.ctxBefore hfit
    have hplace : placeOf c.before (offset + d) w = (c.before.start + offset + d + w.redn.1).toNat := by
      unfold placeOf
      congr 1
      omega
    have hst := fits_trim hfit
    have hcb := hwf.ctxBefore
    have hlen : (trim w.redn c.before.items).length = coveredBy c.before w := by
      rw [length_trim _ _ (by omega)]
      rfl
    have hmax : max k (placeOf c.before (offset + d) w) = placeOf c.before (offset + d) w := by omega
    rw [hmax, ← hlen] at ih
    rw [written_trim (hf c (by simp)) hfit hls]
    refine .replaced _ w.redn (by omega) b1 b2 ?_ (ih hr (fun c hc => hw c (by simp [hc])) (fun c hc => hf c (by simp [hc])) ?_ ?_ ?_)
    · rw [hplace, Int.toNat_of_nonneg b3]
      exact hst
    · cases cs with
      | nil => trivial
      | cons c' cs => exact ho.2
    · exact hn.imp_left NewInOrder.tail
    · intro c' hc'
      cases cs with
      | nil => cases hc'
      | cons c'' cs =>
        cases hc'
        have := ho.1
        rw [hlen]
        unfold coveredBy
        omega
  | @already k offset st c cs d w out r hd h ih =>
    have hn' : NewInOrder (c :: cs) := by
      refine hn.resolve_right ?_
      rintro ⟨h1, h2⟩
      have := h.grows hr
      simp only [Decision.count] at this
      split at this <;> simp only at this <;> omega
    have hpos : (d = 0 ∨ 0 < d ∨ (k : Int) ≤ c.after.start + offset + d) ∧
        Fits c.after.items c.contextLengths l (c.after.start + offset + d) (some w) := by
      obtain ⟨-, -, -, ⟨rfl, hd⟩ | ⟨-, -, hb, hd, -⟩⟩ := hd
      · rw [Int.add_zero]
        exact ⟨.inl rfl, hd⟩
      · refine ⟨?_, hd⟩
        rcases hb with ⟨-, hb⟩ | ⟨hb, -⟩
        · exact .inr (.inr hb)
        · exact .inr (.inl hb)
    obtain ⟨hp, hfit⟩ := hpos
    have hk' := hk c rfl
    have hwf := hw c (by simp)
    obtain ⟨b1, b2, b3, b4⟩ := fits_some_bounds hwf.ctxAfter hfit
    have hca := hwf.ctxAfter
    have hplace : placeOf c.after (offset + d) w = (c.after.start + offset + d + w.redn.1).toNat := by
      unfold placeOf
      congr 1
      omega
    have hcut : cut l k (placeOf c.after (offset + d) w + coveredBy c.after w) =
        cut l k (max k (placeOf c.after (offset + d) w + coveredBy c.after w)) := by
      by_cases hle : k ≤ placeOf c.after (offset + d) w + coveredBy c.after w
      · rw [Nat.max_eq_right hle]
      · rw [Nat.max_eq_left (by omega)]
        unfold cut
        rw [show placeOf c.after (offset + d) w + coveredBy c.after w - k = 0 by omega, Nat.sub_self]
    rw [hcut]
    refine .copied _ (by omega) (ih hr (fun c hc => hw c (by simp [hc])) (fun c hc => hf c (by simp [hc])) ?_ ?_ ?_)
    · cases cs with
      | nil => trivial
      | cons c' cs => exact ho.2
    · exact hn.imp_left NewInOrder.tail
    · intro c' hc'
      cases cs with
      | nil => cases hc'
      | cons c'' cs =>
        cases hc'
        have h1 := ho.1
        have h2 := hn'.1
        unfold coveredBy
        omega
  | @failed k offset st c cs out r hd _ ih =>
    refine .marked (ih hr (fun c hc => hw c (by simp [hc])) (fun c hc => hf c (by simp [hc])) ?_ ?_ ?_)
    · cases cs with
      | nil => trivial
      | cons c' cs => exact ho.2
    · exact hn.imp_left NewInOrder.tail
    · intro c' hc'
      cases cs with
      | nil => cases hc'
      | cons c'' cs =>
        cases hc'
        have := ho.1
        have := hk c rfl
        omega

end

theorem drop_split {T : Type} {l : List T} {k m : Nat} (h : k ≤ m) : l.drop k = cut l k m ++ l.drop m := by
  unfold cut
  conv => lhs; rw [← List.take_append_drop (m - k) (l.drop k)]
  rw [List.drop_drop, show k + (m - k) = m by omega]

/-- What a byte does not lose: if it stands in no old line of the patch it occurs in the output at least as often as in the file. -/
theorem Spliced.count {l : List Str} {k : Nat} {cs : List (DiffClump Str)} {out : List UInt8} (h : Spliced l k cs out)
    (x : UInt8) (hx : ∀ c ∈ cs, x ∉ bytesOf c.before.items) : (bytesOf (l.drop k)).count x ≤ out.count x := by
  induction h with
  | rest => exact Nat.le_refl _
  | @replaced k c cs out place r h1 _ _ h4 _ ih =>
    have := ih (fun c hc => hx c (by simp [hc]))
    rw [standsAt_nat] at h4
    have e : l.drop k = cut l k place ++ (cut l place (place + (trim r c.before.items).length) ++ l.drop (place + (trim r c.before.items).length)) := by
      rw [drop_split h1, drop_split (Nat.le_add_right place (trim r c.before.items).length)]
    have h0 : (bytesOf (trim r c.before.items)).count x = 0 := by
      rw [List.count_eq_zero]
      intro hm
      apply hx c (by simp)
      simp only [bytesOf, List.mem_flatMap] at hm ⊢
      obtain ⟨y, hy, hm⟩ := hm
      exact ⟨y, List.mem_of_mem_take (List.mem_of_mem_drop hy), hm⟩
    rw [e, h4.2]
    simp only [bytesOf_append, List.count_append]
    omega
  | @copied k c cs out place h1 _ ih =>
    have := ih (fun c hc => hx c (by simp [hc]))
    rw [drop_split h1]
    simp only [bytesOf_append, List.count_append]
    omega
  | marked _ ih =>
    have := ih (fun c hc => hx c (by simp [hc]))
    rw [List.count_append]
    omega

/-- The full statement of C79: whatever file a patch is applied to, if that succeeds the output is the file with the old lines
of clumps replaced, where they stand. -/
def C79_statement : Prop :=
  ∀ (p : Profile) (before after : List Str) (context : Nat) (cs : List (DiffClump Str)), context ≤ 255 →
    diffClumps p before after context = .ok cs →
    ∀ (l : List Str) (st : Statistics) (out : List UInt8), (applyInto p cs l false).run = (.ok st, out) → Spliced l 0 cs out

/-- It fails: on a file to which the first clump has already been applied the place expected for the second is before the
end of the first; if its old lines happen to stand there too, as many lines are dropped further on (here `n` and `o`). -/
theorem C79_refuted : ¬ C79_statement := by
  intro h
  have := h .debug (letters ['a', 'm', 'n', 'o', 'y']) (letters ['b', 'c', 'd', 'o', 'y', 'e', 'm', 'n', 'o', 'Z']) 1
    [⟨(0, 1), ⟨0, letters ['a', 'm']⟩, ⟨0, letters ['b', 'c', 'd', 'o', 'y', 'e', 'm']⟩⟩,
     ⟨(1, 0), ⟨3, letters ['o', 'y']⟩, ⟨8, letters ['o', 'Z']⟩⟩] (by decide) (by decide +kernel)
    (letters ['b', 'c', 'd', 'o', 'y', 'e', 'm', 'n', 'o', 'y']) { clean := 1, alreadyApplied := 1 }
    (bytesOf (letters ['b', 'c', 'd', 'o', 'y', 'e', 'm', 'o', 'Z', 'y'])) (by decide +kernel)
  have := this.count 110 (by decide +kernel)
  revert this
  decide +kernel

section

variable {T : Type} [DecidableEq T] [Item T] [LawfulItem T]

/-- What holds, for every well-formed patch whose clumps are in order and do not meet the defect of C35: if no clump counts as
already applied, no line is lost. -/
theorem C79_partial (p : Profile) (cs : List (DiffClump T)) (l : List T) (hw : ∀ c ∈ cs, c.WellFormed)
    (hsz : l.length + weight cs < sizeLimit) (ho : OldInOrder cs) (hf : ∀ c ∈ cs, WritesRight c) (st : Statistics)
    (out : List UInt8) (h : (applyInto p cs l false).run = (.ok st, out)) (h1 : st.alreadyApplied = 0)
    (h2 : st.alreadyAppliedFuzzy = 0) : Spliced l 0 cs out :=
  spliced_of_patching ((C57_refines p l cs hw hsz out (.ok st)).1 h) rfl hw hf ho (.inr ⟨h1, h2⟩) (fun c _ => by omega)

omit [DecidableEq T] [Item T] [LawfulItem T] in
theorem oldInOrder_of_stand {l : List T} {d : Int} {k : Nat} {cs : List (DiffClump T)} (h : StandInOrder l d k cs) : OldInOrder cs := by
  induction cs generalizing k with
  | nil => trivial
  | cons c cs ih =>
    cases cs with
    | nil => trivial
    | cons c' cs =>
      obtain ⟨h1, h2, h3⟩ := h
      have h4 := h3.1
      exact ⟨by omega, ih h3⟩

/-- In particular for every patch made with a context of at most one line. -/
theorem C79_generated (p q : Profile) (before after : List T) (context : Nat) (hctx : context ≤ 1)
    (hb : before.length ≤ maxLines) (ha : after.length ≤ maxLines) (cs : List (DiffClump T))
    (h : diffClumps p before after context = .ok cs) (l : List T) (hl : l.length ≤ maxLines) (st : Statistics)
    (out : List UInt8) (hr : (applyInto q cs l false).run = (.ok st, out)) (h1 : st.alreadyApplied = 0)
    (h2 : st.alreadyAppliedFuzzy = 0) : Spliced l 0 cs out := by
  have hd := (diffClumps_full (by omega) h).1
  refine C79_partial q cs l (hd.wellFormed hb ha) (hd.size hb ha hl) ?_ ?_ st out hr h1 h2
  · obtain ⟨skip, hd'⟩ := hd.diffed
    exact oldInOrder_of_stand hd'.standInOrder
  · intro c hc
    right
    obtain ⟨changes, ccs, -, -, e3, -, e5⟩ := diffClumps_spec p before after context
    obtain rfl := Outcome.ok_inj (e5.symm.trans h)
    obtain ⟨cc, hcc, rfl⟩ := List.mem_map.1 hc
    obtain ⟨i, j, ie, je, ht⟩ := e3.cover.mem cc hcc
    obtain ⟨-, k1, k2, -, -⟩ := clump_context (by omega) (e3.each cc hcc) ht
    simp only [toDiffClump]
    omega

/-- Also if clumps count as already applied no line is lost, provided the new lines of each clump end before the old ones of the next
begin. -/
theorem C79_inOrder (p : Profile) (cs : List (DiffClump T)) (l : List T) (hw : ∀ c ∈ cs, c.WellFormed)
    (hsz : l.length + weight cs < sizeLimit) (ho : OldInOrder cs) (hn : NewInOrder cs) (hf : ∀ c ∈ cs, WritesRight c) (st : Statistics)
    (out : List UInt8) (h : (applyInto p cs l false).run = (.ok st, out)) : Spliced l 0 cs out :=
  spliced_of_patching ((C57_refines p l cs hw hsz out (.ok st)).1 h) rfl hw hf ho (.inl hn) (fun c _ => by omega)

omit [DecidableEq T] [Item T] [LawfulItem T] in
theorem newInOrder_of_diffed {skip : CommonSubsequence → Prop} {before after : List T} {i j ie je : Nat} {cs : List (DiffClump T)}
    (h : Diffed skip before after i j cs ie je) (hij : j ≤ i) (hlen : ∀ c ∈ cs, c.after.items.length ≤ c.before.items.length) : NewInOrder cs := by
  induction cs generalizing i j with
  | nil => trivial
  | cons c cs ih =>
    obtain ⟨⟨n, h1, h2, -⟩, -, -, h3⟩ := h
    have hc := hlen c (by simp)
    have := ih h3 (by omega) fun x hx => hlen x (by simp [hx])
    cases cs with
    | nil => trivial
    | cons c' cs =>
      obtain ⟨⟨m, h4, -, -⟩, -⟩ := h3
      exact ⟨by omega, this⟩

/-- So a patch made with at most one line of context, none of whose clumps puts in more lines than it takes out, never loses a line of
the file it is applied to, whatever that is and whatever becomes of the clumps. -/
theorem C79_shorter (p q : Profile) (before after : List T) (context : Nat) (hctx : context ≤ 1)
    (hb : before.length ≤ maxLines) (ha : after.length ≤ maxLines) (cs : List (DiffClump T))
    (h : diffClumps p before after context = .ok cs) (hlen : ∀ c ∈ cs, c.after.items.length ≤ c.before.items.length)
    (l : List T) (hl : l.length ≤ maxLines) (st : Statistics)
    (out : List UInt8) (hr : (applyInto q cs l false).run = (.ok st, out)) : Spliced l 0 cs out := by
  have hd := (diffClumps_full (by omega) h).1
  refine C79_inOrder q cs l (hd.wellFormed hb ha) (hd.size hb ha hl) ?_ ?_ ?_ st out hr
  · obtain ⟨skip, hd'⟩ := hd.diffed
    exact oldInOrder_of_stand hd'.standInOrder
  · obtain ⟨skip, hd'⟩ := hd.diffed
    exact newInOrder_of_diffed hd' (Nat.le_refl _) hlen
  · intro c hc
    right
    obtain ⟨changes, ccs, -, -, e3, -, e5⟩ := diffClumps_spec p before after context
    obtain rfl := Outcome.ok_inj (e5.symm.trans h)
    obtain ⟨cc, hcc, rfl⟩ := List.mem_map.1 hc
    obtain ⟨i, j, ie, je, ht⟩ := e3.cover.mem cc hcc
    obtain ⟨-, k1, k2, -, -⟩ := clump_context (by omega) (e3.each cc hcc) ht
    simp only [toDiffClump]
    omega

end

/-- A patch of two clumps on a file in which only the second can be placed, and that displaced. -/
example : (applyInto .debug ([⟨(0, 1), ⟨0, letters ['a', 'm']⟩, ⟨0, letters ['b', 'm']⟩⟩,
     ⟨(1, 0), ⟨3, letters ['o', 'y']⟩, ⟨3, letters ['o', 'Z']⟩⟩] : List (DiffClump Str)) (letters ['q', 'r', 'r', 'r', 'o', 'y', 's']) false).run.1 =
   .ok { fuzzy := 1, failed := 1 } := by decide +kernel

/-- `C79_partial` here: `oy` is replaced one line further down, and the lines before and after it are written. -/
example := C79_partial .debug ([⟨(0, 1), ⟨0, letters ['a', 'm']⟩, ⟨0, letters ['b', 'm']⟩⟩,
     ⟨(1, 0), ⟨3, letters ['o', 'y']⟩, ⟨3, letters ['o', 'Z']⟩⟩] : List (DiffClump Str)) (letters ['q', 'r', 'r', 'r', 'o', 'y', 's'])
  (by intro c hc
      simp only [List.mem_cons, List.not_mem_nil, or_false] at hc
      rcases hc with rfl | rfl <;> exact ⟨by decide, by decide, by decide, by decide⟩)
  (by decide +kernel) ⟨by decide, trivial⟩
  (by intro c hc
      simp only [List.mem_cons, List.not_mem_nil, or_false] at hc
      rcases hc with rfl | rfl
      · exact .inl rfl
      · exact .inr (by decide))
  { fuzzy := 1, failed := 1 } (Str.bytes "<<<<<<<\na\nm\n=======\nb\nm\n>>>>>>>\nq\nr\nr\nr\no\nZ\ns\n".toList) (by decide +kernel) rfl rfl

/-- `C79_inOrder` where the first clump counts as already applied. -/
example := C79_inOrder .debug ([⟨(0, 1), ⟨0, letters ['a', 'm']⟩, ⟨0, letters ['b', 'm']⟩⟩,
     ⟨(1, 0), ⟨3, letters ['o', 'y']⟩, ⟨3, letters ['o', 'Z']⟩⟩] : List (DiffClump Str)) (letters ['b', 'm', 'r', 'o', 'y', 's'])
  (by intro c hc
      simp only [List.mem_cons, List.not_mem_nil, or_false] at hc
      rcases hc with rfl | rfl <;> exact ⟨by decide, by decide, by decide, by decide⟩)
  (by decide +kernel) ⟨by decide, trivial⟩ ⟨by decide, trivial⟩
  (by intro c hc
      simp only [List.mem_cons, List.not_mem_nil, or_false] at hc
      rcases hc with rfl | rfl
      · exact .inl rfl
      · exact .inr (by decide))
  { clean := 1, alreadyApplied := 1 } (Str.bytes "b\nm\nr\no\nZ\ns\n".toList) (by decide +kernel)

end PwDiff
