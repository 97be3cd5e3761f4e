import Verif.Props.Twice

/-! # C141: a patch of which some clumps are found and others not -/

namespace PwDiff

section

variable {T : Type}

/-- The file: for a clump with `some gap`, these lines and then its old lines; for one with `none`, nothing. -/
def having : List (Option (List T) × DiffClump T) → List T → List T
  | [], last => last
  | (some gap, c) :: parts, last => gap ++ c.before.items ++ having parts last
  | (none, _) :: parts, last => having parts last

/-- The result: the old lines that are there are replaced, and for the others a conflict is written directly after the clump before. -/
def withConflicts [Item T] : List (Option (List T) × DiffClump T) → List T → List UInt8
  | [], last => bytesOf last
  | (some gap, c) :: parts, last => bytesOf gap ++ bytesOf c.after.items ++ withConflicts parts last
  | (none, c) :: parts, last => conflict c.before.items c.after.items ++ withConflicts parts last

/-- The clumps that are there fit only where they stand, the others nowhere, not even with their new lines. -/
def FitsIfThere (l : List T) : Nat → List (Option (List T) × DiffClump T) → Prop
  | _, [] => True
  | pos, (some gap, c) :: parts =>
    (∀ x : Int, x ≠ (pos + gap.length : Nat) → Fits c.before.items c.contextLengths l x none) ∧
      FitsIfThere l (pos + gap.length + c.before.items.length) parts
  | pos, (none, c) :: parts =>
    (NowhereFits l c.contextLengths c.before ∧ NowhereFits l c.contextLengths c.after) ∧ FitsIfThere l pos parts

/-- A clump that is there, and further down than expected, counting from the one found before, stands before the limit of the search. -/
def FoundInTime (l : List T) : Nat → Int → List (Option (List T) × DiffClump T) → Prop
  | _, _, [] => True
  | pos, offset, (some gap, c) :: parts =>
    (c.before.start + offset < (pos + gap.length : Nat) → ((pos + gap.length : Nat) : Int) <
      searchLimit l c.contextLengths c.before (parts.head?.map fun x => x.2.before) offset) ∧
    FoundInTime l (pos + gap.length + c.before.items.length) ((pos + gap.length : Nat) - c.before.start) parts
  | pos, offset, (none, _) :: parts => FoundInTime l pos offset parts

/-- For the clumps that are not there no limit underflows. -/
def MissedSafely (l : List T) : Nat → Int → List (Option (List T) × DiffClump T) → Prop
  | _, _, [] => True
  | pos, _, (some gap, c) :: parts =>
    MissedSafely l (pos + gap.length + c.before.items.length) ((pos + gap.length : Nat) - c.before.start) parts
  | pos, offset, (none, c) :: parts =>
    (¬ Underflow l c.contextLengths c.before (parts.head?.map fun x => x.2.before) offset ∧
      ¬ Underflow l c.contextLengths c.after (parts.head?.map fun x => x.2.after) offset) ∧ MissedSafely l pos offset parts

/-- The number of clumps that are there, but not where they are expected. -/
def shifted : Nat → Int → List (Option (List T) × DiffClump T) → Nat
  | _, _, [] => 0
  | pos, offset, (some gap, c) :: parts =>
    (if ((pos + gap.length : Nat) : Int) = c.before.start + offset then 0 else 1) +
      shifted (pos + gap.length + c.before.items.length) ((pos + gap.length : Nat) - c.before.start) parts
  | pos, offset, (none, _) :: parts => shifted pos offset parts

/-- The number of clumps that are there, and where they are expected. -/
def unshifted : Nat → Int → List (Option (List T) × DiffClump T) → Nat
  | _, _, [] => 0
  | pos, offset, (some gap, c) :: parts =>
    (if ((pos + gap.length : Nat) : Int) = c.before.start + offset then 1 else 0) +
      unshifted (pos + gap.length + c.before.items.length) ((pos + gap.length : Nat) - c.before.start) parts
  | pos, offset, (none, _) :: parts => unshifted pos offset parts

/-- The number of clumps that are not there. -/
def missing : List (Option (List T) × DiffClump T) → Nat
  | [] => 0
  | (some _, _) :: parts => missing parts
  | (none, _) :: parts => missing parts + 1

theorem head_snd (side : DiffClump T → Snippet T) (parts : List (Option (List T) × DiffClump T)) :
    (parts.map (·.2)).head?.map side = parts.head?.map fun x => side x.2 := by
  cases parts <;> rfl

theorem patching_some [Item T] (p : Profile) (l : List T) (parts : List (Option (List T) × DiffClump T)) (last front : List T) (pos : Nat)
    (offset : Int) (st : Statistics) (hl : l = front ++ having parts last) (hpos : front.length = pos)
    (hu : FitsIfThere l pos parts) (ho : Disjoint DiffClump.before (parts.map (·.2))) (h0 : ∀ x ∈ parts, 0 ≤ x.2.before.start + offset)
    (hroom : p = .debug → MissedSafely l pos offset parts) (hr : FoundInTime l pos offset parts) :
    Patching p l pos offset st (parts.map (·.2)) (withConflicts parts last)
      (.ok { st with
        clean := st.clean + unshifted pos offset parts
        fuzzy := st.fuzzy + shifted pos offset parts
        failed := st.failed + missing parts }) := by
  induction parts generalizing front pos offset st with
  | nil =>
    have := Patching.finish (p := p) (l := l) (k := pos) (offset := offset) (st := st) (by rw [hl]; simp; omega)
    rw [cut_length_eq] at this
    have e : l.drop pos = last := by rw [hl, ← hpos, List.drop_left]; rfl
    rw [e] at this
    exact this
  | cons x parts ih =>
    obtain ⟨there, c⟩ := x
    obtain ⟨ho1, ho2⟩ := List.pairwise_cons.1 ho
    simp only at ho1
    have hc0 := h0 _ List.mem_cons_self
    simp only at hc0
    cases there with
    | none =>
      obtain ⟨⟨hn1, hn2⟩, hu2⟩ := hu
      have i := ih front pos offset (Decision.count st .failed) hl hpos hu2 ho2 (fun y hy => h0 y (List.mem_cons_of_mem _ hy))
        (fun hp => (hroom hp).2) hr
      have := Patching.failed (c := c) (cs := parts.map (·.2)) (k := pos) (offset := offset) (p := p) (l := l) (st := st)
        ⟨hn1 _, fun h => (hroom h.1).1.1 (by rw [← head_snd]; exact h.2), fun d _ => hn1 _,
          hn2 _, fun h => (hroom h.1).1.2 (by rw [← head_snd]; exact h.2), fun d _ => hn2 _⟩ i
      simpa only [List.map_cons, withConflicts, unshifted, shifted, missing, Decision.count, Nat.add_assoc, Nat.add_comm 1] using this
    | some gap =>
      obtain ⟨hu1, hu2⟩ := hu
      obtain ⟨hr1, hr2⟩ := hr
      have hst : StandsAt c.before.items l ((pos + gap.length : Nat) : Int) := by
        refine ⟨front ++ gap, having parts last, ?_, ?_⟩
        · rw [hl]; simp [having]
        · rw [List.length_append, hpos]
      have hlen : c.before.items.length ≤ l.length := by
        rw [hl]; simp [having]; omega
      obtain ⟨d, hd⟩ : ∃ d : Int, ((pos + gap.length : Nat) : Int) = c.before.start + offset + d :=
        ⟨(pos + gap.length : Nat) - (c.before.start + offset), by omega⟩
      have hdec : Decides p l pos offset c (parts.map (·.2)).head? (.apply d .cleanly) := by
        by_cases hd0 : d = 0
        · subst hd0
          refine .inl ⟨rfl, ?_⟩
          show StandsAt _ _ _
          rwa [hd, Int.add_zero] at hst
        · refine .inr ⟨hu1 _ (by omega), ?_, ?_, ?_, ?_, ?_⟩
          · rintro ⟨-, h⟩
            refine not_underflow DiffClump.before hc0 hlen ?_ h
            intro n hn
            exact ho1 n (List.mem_of_mem_head? hn)
          · by_cases h : 0 < d
            · right
              rw [head_snd]
              exact ⟨h, by rw [← hd]; exact hr1 (by omega)⟩
            · left; omega
          · show StandsAt _ _ _
            rwa [← hd]
          · intro d' _ hlt
            exact hu1 _ (by omega)
          · intro hp _
            exact hu1 _ (by omega)
      have hplace : placeOf c.before (offset + d) .cleanly = pos + gap.length := by
        simp only [placeOf, WillApply.redn]
        omega
      have hcov : coveredBy c.before .cleanly = c.before.items.length := rfl
      have hoff : offset + d = ((pos + gap.length : Nat) : Int) - c.before.start := by omega
      have i := ih (front ++ gap ++ c.before.items) (pos + gap.length + c.before.items.length) (offset + d)
        (Decision.count st (.apply d .cleanly)) (by rw [hl]; simp [having]) (by simp only [List.length_append]; omega) hu2 ho2
        (by
          intro y hy
          have := ho1 y.2 (List.mem_map_of_mem hy)
          omega)
        (fun hp => by rw [hoff]; exact hroom hp) (by rw [hoff]; exact hr2)
      have := Patching.apply (st := st) (ls := c.after.items) hdec rfl (by
        rw [hplace, hcov, Nat.max_eq_right (by omega)]
        exact i)
      rw [hplace] at this
      have ecut : cut l pos (pos + gap.length) = gap := by
        rw [hl]
        simp [having, cut, ← hpos]
      rw [ecut] at this
      simp only [List.map_cons, withConflicts, shifted, unshifted, missing]
      rw [← hoff]
      by_cases hd0 : d = 0
      · subst hd0
        simp only [Decision.count, and_self, if_true] at this
        simpa only [if_pos (show ((pos + gap.length : Nat) : Int) = c.before.start + offset by omega), Nat.add_assoc, Nat.zero_add,
          List.append_assoc] using this
      · simp only [Decision.count, hd0, false_and, if_false] at this
        simpa only [if_neg (show ¬ ((pos + gap.length : Nat) : Int) = c.before.start + offset by omega), Nat.add_assoc, Nat.zero_add,
          List.append_assoc] using this

theorem FitsIfThere.nowhere {l : List T} {pos : Nat} {parts : List (Option (List T) × DiffClump T)} (h : FitsIfThere l pos parts) :
    ∀ x ∈ parts, x.1 = none → NowhereFits l x.2.contextLengths x.2.before := by
  induction parts generalizing pos with
  | nil => simp
  | cons x parts ih =>
    obtain ⟨_ | gap, c⟩ := x
    · intro y hy hn
      rcases List.mem_cons.1 hy with rfl | hy
      · exact h.1.1
      · exact ih h.2 y hy hn
    · intro y hy hn
      rcases List.mem_cons.1 hy with rfl | hy
      · cases hn
      · exact ih h.2 y hy hn

/-- The clumps that are not there are never applied. -/
theorem missing_le [Item T] {p : Profile} {l : List T} {parts : List (Option (List T) × DiffClump T)} {pos : Nat}
    {offset : Int} {st st' : Statistics} {out : List UInt8}
    (hn : ∀ x ∈ parts, x.1 = none → NowhereFits l x.2.contextLengths x.2.before)
    (h : Patching p l pos offset st (parts.map (·.2)) out (.ok st')) :
    st.alreadyApplied + st.alreadyAppliedFuzzy + st.failed + missing parts ≤
      st'.alreadyApplied + st'.alreadyAppliedFuzzy + st'.failed := by
  induction parts generalizing pos offset st out with
  | nil => exact h.countsGrow rfl
  | cons x parts ih =>
    have hn' := fun y hy => hn y (List.mem_cons_of_mem x hy)
    have h1 := hn x List.mem_cons_self
    obtain ⟨there, c⟩ := x
    rw [List.map_cons] at h
    cases h with
    | apply hdec hwr hrest =>
      have i := ih hn' hrest
      cases there with
      | none =>
        have h1 := h1 rfl
        rcases hdec with ⟨-, h⟩ | ⟨-, -, -, h, -⟩ <;> cases fits_unique (h1 _) h
      | some gap =>
        simp only [Decision.count, missing] at i ⊢
        split at i <;> simp only at i <;> omega
    | already hdec hrest =>
      have i := ih hn' hrest
      cases there <;> simp only [Decision.count, missing] at i ⊢ <;> split at i <;> simp only at i <;> omega
    | failed hdec hrest =>
      have i := ih hn' hrest
      cases there <;> simp only [Decision.count, missing] at i ⊢ <;> omega

/-- Conversely, a clump that is there counts as failed if it is beyond the limit. -/
theorem foundInTime_of [Item T] {p : Profile} {l : List T} {parts : List (Option (List T) × DiffClump T)} {last front : List T} {pos : Nat}
    {offset : Int} {st st' : Statistics} {out : List UInt8} (hl : l = front ++ having parts last) (hpos : front.length = pos)
    (hu : FitsIfThere l pos parts) (h : Patching p l pos offset st (parts.map (·.2)) out (.ok st'))
    (he : st'.alreadyApplied + st'.alreadyAppliedFuzzy + st'.failed ≤
      st.alreadyApplied + st.alreadyAppliedFuzzy + st.failed + missing parts) :
    FoundInTime l pos offset parts ∧ (p = .debug → MissedSafely l pos offset parts) := by
  induction parts generalizing front pos offset st out with
  | nil => exact ⟨trivial, fun _ => trivial⟩
  | cons x parts ih =>
    obtain ⟨there, c⟩ := x
    rw [List.map_cons] at h
    cases there with
    | none =>
      obtain ⟨⟨hn1, hn2⟩, hu2⟩ := hu
      cases h with
      | apply hdec hwr hrest =>
        rcases hdec with ⟨-, h⟩ | ⟨-, -, -, h, -⟩ <;> cases fits_unique (hn1 _) h
      | already hdec hrest =>
        obtain ⟨-, -, -, hdec⟩ := hdec
        rcases hdec with ⟨-, h⟩ | ⟨-, -, -, h, -⟩ <;> cases fits_unique (hn2 _) h
      | failed hdec hrest =>
        obtain ⟨-, h1, -, -, h2, -⟩ := hdec
        rw [head_snd] at h1 h2
        have i := ih (front := front) hl hpos hu2 hrest (by
          simp only [Decision.count, missing] at he ⊢
          omega)
        exact ⟨i.1, fun hp => ⟨⟨fun h => h1 ⟨hp, h⟩, fun h => h2 ⟨hp, h⟩⟩, i.2 hp⟩⟩
    | some gap =>
      obtain ⟨hu1, hu2⟩ := hu
      have hst : StandsAt c.before.items l ((pos + gap.length : Nat) : Int) := by
        refine ⟨front ++ gap, having parts last, ?_, ?_⟩
        · rw [hl]; simp [having]
        · rw [List.length_append, hpos]
      cases h with
      | apply hdec hwr hrest =>
        rename_i d w ls out
        have hfit : Fits c.before.items c.contextLengths l (c.before.start + offset + d) (some w) := by
          rcases hdec with ⟨rfl, h⟩ | ⟨-, -, -, h, -⟩
          · simpa [FitsHere] using h
          · exact h
        have hd : c.before.start + offset + d = ((pos + gap.length : Nat) : Int) := Decidable.byContradiction fun hne => by
          have := fits_unique (hu1 _ hne) hfit
          cases this
        rw [hd] at hfit
        have hw : some w = some .cleanly := fits_unique hfit hst
        injection hw with hw
        subst hw
        have hplace : placeOf c.before (offset + d) .cleanly = pos + gap.length := by
          simp only [placeOf, WillApply.redn]
          omega
        have hcov : coveredBy c.before .cleanly = c.before.items.length := rfl
        rw [hplace, hcov, Nat.max_eq_right (by omega), show offset + d = ((pos + gap.length : Nat) : Int) - c.before.start by omega] at hrest
        have i := ih (front := front ++ gap ++ c.before.items) (by rw [hl]; simp [having])
          (by simp only [List.length_append]; omega) hu2 hrest (by
            simp only [Decision.count, missing] at he ⊢
            split <;> simpa using he)
        refine ⟨⟨fun hlt => ?_, i.1⟩, i.2⟩
        rcases hdec with ⟨rfl, -⟩ | ⟨-, -, h, -⟩
        · omega
        · rw [head_snd] at h
          simp only [InBounds] at h
          rw [hd] at h
          rcases h with h | h
          · omega
          · exact h.2
      | already _ h =>
        have := missing_le hu2.nowhere h
        simp only [Decision.count, missing] at this he
        split at this <;> simp only at this <;> omega
      | failed _ h =>
        have := missing_le hu2.nowhere h
        simp only [Decision.count, missing] at this he
        omega

end

section

variable {T : Type} [DecidableEq T] [Item T] [LawfulItem T]

theorem missing_isDiff (q : Profile) {before after : List T}
    (parts : List (Option (List T) × DiffClump T)) (last : List T)
    (hd : IsDiff before after (parts.map (·.2)))
    (hsz : before.length + after.length + (having parts last).length ≤ maxLines) (hu : FitsIfThere (having parts last) 0 parts) :
    ((applyInto q (parts.map (·.2)) (having parts last) false).run =
      (.ok { clean := unshifted 0 0 parts, fuzzy := shifted 0 0 parts, failed := missing parts }, withConflicts parts last) ↔
      FoundInTime (having parts last) 0 0 parts ∧ (q = .debug → MissedSafely (having parts last) 0 0 parts)) ∧
    ∀ st out, (applyInto q (parts.map (·.2)) (having parts last) false).run = (.ok st, out) →
      st.alreadyApplied + st.alreadyAppliedFuzzy + st.failed = missing parts → out = withConflicts parts last := by
  have hw := hd.wellFormed (by omega) (by omega)
  have hwt := hd.weight
  obtain ⟨skip, hs⟩ := hd.diffed
  have hdis := hs.standInOrder.disjoint.1
  simp only [maxLines] at hsz
  have href := C57_refines q (having parts last) _ hw (by simp only [sizeLimit]; omega)
  have hto : FoundInTime (having parts last) 0 0 parts ∧ (q = .debug → MissedSafely (having parts last) 0 0 parts) →
      (applyInto q (parts.map (·.2)) (having parts last) false).run =
      (.ok { clean := unshifted 0 0 parts, fuzzy := shifted 0 0 parts, failed := missing parts }, withConflicts parts last) := by
    rintro ⟨hr, hroom⟩
    rw [href]
    have := patching_some q _ parts last [] 0 0 {} rfl rfl hu hdis (fun x _ => by omega) hroom hr
    simpa using this
  refine ⟨⟨fun hrun => foundInTime_of (front := []) rfl rfl hu ((href _ _).1 hrun) (by simp), hto⟩, ?_⟩
  intro st out hrun e
  have := hto (foundInTime_of (front := []) rfl rfl hu ((href _ _).1 hrun) (by rw [e]; simp))
  rw [hrun] at this
  exact (Prod.mk.injEq .. ▸ this).2

/-- A patch is applied to a file in which the old lines of some of its clumps are, in order, with any lines between them, and fit
nowhere else, while neither the old nor the new lines of the others fit anywhere. Then the former are applied, and for each of the
others a conflict is written directly after the new lines of the clump applied before it, wherever its old lines may have been; all
other lines are kept. This is so if and only if each clump that is there, and further down than expected, stands before the limit of
the search (and, in debug builds, no limit underflows for one that is not there). -/
theorem C141_exact (p q : Profile) (before after : List T) (context : Nat) (hctx : context ≤ 255)
    (parts : List (Option (List T) × DiffClump T)) (last : List T)
    (h : diffClumps p before after context = .ok (parts.map (·.2)))
    (hsz : before.length + after.length + (having parts last).length ≤ maxLines) (hu : FitsIfThere (having parts last) 0 parts) :
    ((applyInto q (parts.map (·.2)) (having parts last) false).run =
      (.ok { clean := unshifted 0 0 parts, fuzzy := shifted 0 0 parts, failed := missing parts }, withConflicts parts last) ↔
      FoundInTime (having parts last) 0 0 parts ∧ (q = .debug → MissedSafely (having parts last) 0 0 parts)) ∧
    ∀ st out, (applyInto q (parts.map (·.2)) (having parts last) false).run = (.ok st, out) →
      st.alreadyApplied + st.alreadyAppliedFuzzy + st.failed = missing parts → out = withConflicts parts last :=
  missing_isDiff q parts last (diffClumps_full hctx h).1 hsz hu

/-- A clump that is there removes a line that is in the file only once; one that is not there removes a line, and adds one, that is not in
the file. -/
def Evident {T : Type} [DecidableEq T] (l : List T) : Option (List T) × DiffClump T → Prop
  | (some _, c) => ChangesUnique l c
  | (none, c) => (∃ y ∈ trim c.contextLengths c.before.items, y ∉ l) ∧ ∃ y ∈ trim c.contextLengths c.after.items, y ∉ l

instance {T : Type} [DecidableEq T] (l : List T) (x : Option (List T) × DiffClump T) : Decidable (Evident l x) := by
  obtain ⟨_ | _, c⟩ := x <;> unfold Evident <;> infer_instance

omit [Item T] [LawfulItem T] in
theorem fitsIfThere_of_evident {l last front : List T} {pos : Nat} {parts : List (Option (List T) × DiffClump T)}
    (hl : l = front ++ having parts last) (hpos : front.length = pos) (h : ∀ x ∈ parts, Evident l x) : FitsIfThere l pos parts := by
  induction parts generalizing front pos with
  | nil => trivial
  | cons x parts ih =>
    have hx := h x List.mem_cons_self
    have h' := fun y hy => h y (List.mem_cons_of_mem x hy)
    obtain ⟨_ | gap, c⟩ := x
    · obtain ⟨⟨y, hy, hm⟩, z, hz, hm'⟩ := hx
      exact ⟨⟨nowhere_of_missing hy hm, nowhere_of_missing hz hm'⟩, ih (front := front) hl hpos h'⟩
    · obtain ⟨y, hy, h1⟩ := hx
      refine ⟨fun z hz => fits_once (place := (pos + gap.length : Nat)) ⟨front ++ gap, having parts last, ?_, ?_⟩ hy h1 hz,
        ih (front := front ++ gap ++ c.before.items) (by rw [hl]; simp [having]) (by simp only [List.length_append]; omega) h'⟩
      · rw [hl]; simp [having]
      · rw [List.length_append, hpos]

/-- It is enough that the clumps that are there, and those that are not, are recognised by one line. -/
theorem C141_once (p : Profile) (before after : List T) (context : Nat) (hctx : context ≤ 255)
    (parts : List (Option (List T) × DiffClump T)) (last : List T)
    (h : diffClumps p before after context = .ok (parts.map (·.2)))
    (hsz : before.length + after.length + (having parts last).length ≤ maxLines)
    (he : ∀ x ∈ parts, Evident (having parts last) x) (hr : FoundInTime (having parts last) 0 0 parts) :
    (applyInto .release (parts.map (·.2)) (having parts last) false).run =
      (.ok { clean := unshifted 0 0 parts, fuzzy := shifted 0 0 parts, failed := missing parts }, withConflicts parts last) :=
  (C141_exact p .release before after context hctx parts last h hsz (fitsIfThere_of_evident (front := []) rfl rfl he)).1.2
    ⟨hr, fun h => nomatch h⟩

end

/-- In the program: the exit status is 0 all the same. -/
theorem C141_program (p : Profile) (temp patch target : Path) (w : World) (hf : w.faults = []) (d : TextChangeDiff)
    (hp : HoldsDiff w.fs patch (.textChange d)) (htg : d.beforePath = target) (hfree : w.fs.node (w.fs.entry temp) = none)
    (before after : List Str) (context : Nat) (hctx : context ≤ 255) (parts : List (Option (List Str) × DiffClump Str)) (last : List Str)
    (hd : d.clumps = parts.map (·.2)) (h : diffClumps p before after context = .ok d.clumps)
    (s : Str) (hold : w.fs.contentAt target = some ⟨s.bytes, false⟩) (hs : splitInclusive s = having parts last)
    (hsz : before.length + after.length + (splitInclusive s).length ≤ maxLines)
    (he : ∀ x ∈ parts, Evident (splitInclusive s) x) (hr : FoundInTime (splitInclusive s) 0 0 parts) :
    (pwPatch .release temp patch false).run w = (.exited 0,
      { w with fs := w.fs.set (w.fs.entry target) (some (.file (withConflicts parts last))) }) := by
  subst htg
  refine C46_normal .release temp patch d.beforePath false w (.textChange d) hp rfl hf hfree hold
    ⟨s, { clean := unshifted 0 0 parts, fuzzy := shifted 0 0 parts, failed := missing parts }, rfl, ?_⟩
  rw [hs] at hsz he hr ⊢
  rw [hd] at h ⊢
  exact C141_once p before after context hctx parts last h hsz he hr

/-- The patch of C137 and a file in which a line the second clump removes was changed. -/
def someThere : List (Option (List Str) × DiffClump Str) :=
  [(some (letters ['a', 'N', 'b']), ⟨(1, 1), ⟨2, letters ['c', 'd', 'e']⟩, ⟨2, letters ['c', 'X', 'Y', 'e']⟩⟩),
   (none, ⟨(1, 1), ⟨6, letters ['g', 'h', 'i']⟩, ⟨7, letters ['g', 'Z', 'W', 'i']⟩⟩)]

theorem someThere_found (last : List Str) : FoundInTime (having someThere last) 0 0 someThere := by
  refine ⟨fun _ => ?_, trivial⟩
  simp only [searchLimit, searchRoom, coreLen, letters, List.length_map, List.length_cons, List.length_nil, List.head?_cons, Option.map_some]
  omega

/-- The conflict is written after the first clump, not where the line `h` was. -/
example : (applyInto .release (wovenParts.map (·.2)) (letters ['a', 'N', 'b', 'c', 'd', 'e', 'f', 'g', 'Q', 'i', 'j']) false).run =
    (.ok { fuzzy := 1, failed := 1 }, Str.bytes
      "a\nN\nb\nc\nX\nY\ne\n<<<<<<<\ng\nh\ni\n=======\ng\nZ\nW\ni\n>>>>>>>\nf\ng\nQ\ni\nj\n".toList) :=
  (C141_once .debug _ _ 1 (by decide) someThere (letters ['f', 'g', 'Q', 'i', 'j']) woven_diff (by decide +kernel) (by decide +kernel)
    (someThere_found _)).trans (by decide +kernel)

/-- Debug builds too. -/
example : (applyInto .debug (someThere.map (·.2)) (having someThere (letters ['f', 'g', 'Q', 'i', 'j'])) false).run.1 =
    .ok { fuzzy := 1, failed := 1 } :=
  congrArg Prod.fst ((C141_exact .debug .debug _ _ 1 (by decide) someThere (letters ['f', 'g', 'Q', 'i', 'j']) woven_diff (by decide +kernel)
    (fitsIfThere_of_evident (last := letters ['f', 'g', 'Q', 'i', 'j']) (front := []) rfl rfl (by decide +kernel))).1.2
    ⟨someThere_found _, fun _ => ⟨⟨by unfold Underflow; decide +kernel, by unfold Underflow; decide +kernel⟩, trivial⟩⟩)

/-- What one may expect: a clump that has failed is marked where its old lines were, so that the lines before them are still before
the conflict. -/
def C141_statement : Prop :=
  ∀ (p q : Profile) (before after : List Str) (context : Nat) (c d : DiffClump Str) (front gap old last : List Str), context ≤ 255 →
    diffClumps p before after context = .ok [c, d] → before = front ++ c.before.items ++ gap ++ d.before.items ++ last →
    NowhereFits (front ++ c.before.items ++ gap ++ old ++ last) d.contextLengths d.before →
    NowhereFits (front ++ c.before.items ++ gap ++ old ++ last) d.contextLengths d.after →
    ∃ rest, (applyInto q [c, d] (front ++ c.before.items ++ gap ++ old ++ last) false).run.2 =
      bytesOf (front ++ c.after.items ++ gap) ++ conflict d.before.items d.after.items ++ rest

/-- That is not so: see the example above. -/
theorem C141_refuted : ¬ C141_statement := by
  intro h
  obtain ⟨rest, hx⟩ := h .debug .release _ _ 1 ⟨(1, 1), ⟨2, letters ['c', 'd', 'e']⟩, ⟨2, letters ['c', 'X', 'Y', 'e']⟩⟩
    ⟨(1, 1), ⟨6, letters ['g', 'h', 'i']⟩, ⟨7, letters ['g', 'Z', 'W', 'i']⟩⟩ (letters ['a', 'b']) (letters ['f']) (letters ['g', 'Q', 'i'])
    (letters ['j']) (by decide) woven_diff (by decide +kernel) (nowhere_of_check (by decide +kernel)) (nowhere_of_check (by decide +kernel))
  have e : (applyInto .release [(⟨(1, 1), ⟨2, letters ['c', 'd', 'e']⟩, ⟨2, letters ['c', 'X', 'Y', 'e']⟩⟩ : DiffClump Str),
      ⟨(1, 1), ⟨6, letters ['g', 'h', 'i']⟩, ⟨7, letters ['g', 'Z', 'W', 'i']⟩⟩]
      (letters ['a', 'b'] ++ letters ['c', 'd', 'e'] ++ letters ['f'] ++ letters ['g', 'Q', 'i'] ++ letters ['j']) false).run.2 =
      Str.bytes "a\nb\nc\nX\nY\ne\n<<<<<<<\ng\nh\ni\n=======\ng\nZ\nW\ni\n>>>>>>>\nf\ng\nQ\ni\nj\n".toList := by decide +kernel
  have := congrArg (fun x => x[12]?) (e.symm.trans hx)
  rw [List.append_assoc, List.getElem?_append_left (by decide +kernel)] at this
  revert this
  decide +kernel

/-- The situation for the program. -/
example : ∃ w r, (pwPatch .release [84] [67] false).run w = (.exited 0, r) ∧
    w.fs.contentAt [65] = some ⟨bytesOf (letters ['a', 'N', 'b', 'c', 'd', 'e', 'f', 'g', 'Q', 'i', 'j']), false⟩ ∧
    r.fs.contentAt [65] = some ⟨withConflicts someThere (letters ['f', 'g', 'Q', 'i', 'j']), false⟩ := by
  obtain ⟨e1, e2, e3, e3', e4, e5, e6, e6', e7, e8⟩ := FS.ofFiles_two
    (bytesOf (letters ['a', 'N', 'b', 'c', 'd', 'e', 'f', 'g', 'Q', 'i', 'j']))
    (Diff.textChange ⟨[65], [66], someThere.map (·.2)⟩).fileContent
  generalize FS.ofFiles [([65], _), ([67], _)] = fs at *
  have e : splitInclusive (letters ['a', 'N', 'b', 'c', 'd', 'e', 'f', 'g', 'Q', 'i', 'j']).flatten =
      having someThere (letters ['f', 'g', 'Q', 'i', 'j']) := by decide +kernel
  have h := C141_program .debug [84] [67] [65] ⟨fs, [], []⟩ rfl ⟨[65], [66], someThere.map (·.2)⟩ ?_ rfl ?_
    _ _ 1 (by decide) someThere (letters ['f', 'g', 'Q', 'i', 'j']) rfl woven_diff
    (letters ['a', 'N', 'b', 'c', 'd', 'e', 'f', 'g', 'Q', 'i', 'j']).flatten ?_ e (by decide +kernel) (by decide +kernel)
    (by rw [e]; exact someThere_found _)
  · exact ⟨_, _, h, e7, FS.contentAt_of_file (by simp)⟩
  · refine holdsDiff_of_file ?_ ?_ e8
    · intro c hc
      simp only [someThere, List.map_cons, List.map_nil, List.mem_cons, List.not_mem_nil, or_false] at hc
      rcases hc with rfl | rfl <;> simp [DiffClump.InRange, wordSize]
    · intro path h
      simp only [Diff.paths, List.mem_cons, List.not_mem_nil, or_false] at h
      rcases h with rfl | rfl
      · exact ⟨['A'], by decide⟩
      · exact ⟨['B'], by decide⟩
  · show fs.node (fs.entry [84]) = none
    rw [e3, e6']
  · exact e7.trans (by decide +kernel)

end PwDiff
