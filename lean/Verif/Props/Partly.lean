import Verif.Props.Since

/-! # C139: a file in which some clumps of a patch were applied already -/

namespace PwDiff

section

variable {T : Type}

/-- A part of a file: any lines, then the new (`done`) or the old lines of a clump. -/
structure Stretch (T : Type) where
  gap : List T
  clump : DiffClump T
  done : Bool

/-- The side of a clump that is there if it was applied, resp. if it was not. -/
def sideOf : Bool → DiffClump T → Snippet T
  | true, c => c.after
  | false, c => c.before

/-- The file, in which some clumps were applied and others not. -/
def partly : List (Stretch T) → List T → List T
  | [], last => last
  | x :: parts, last => x.gap ++ (sideOf x.done x.clump).items ++ partly parts last

/-- The same file with all clumps applied. -/
def wholly : List (Stretch T) → List T → List T
  | [], last => last
  | x :: parts, last => x.gap ++ x.clump.after.items ++ wholly parts last

/-- The side that is there, even without some context, fits only where it stands. -/
def FitsOnce (l : List T) : Nat → List (Stretch T) → Prop
  | _, [] => True
  | pos, x :: parts =>
    (∀ y : Int, y ≠ (pos + x.gap.length : Nat) → Fits (sideOf x.done x.clump).items x.clump.contextLengths l y none) ∧
      FitsOnce l (pos + x.gap.length + (sideOf x.done x.clump).items.length) parts

/-- Every clump that stands further down than expected, counting from the one before, stands before the limit of the search. -/
def InReach (l : List T) : Nat → Int → List (Stretch T) → Prop
  | _, _, [] => True
  | pos, offset, x :: parts =>
    ((sideOf x.done x.clump).start + offset < (pos + x.gap.length : Nat) → ((pos + x.gap.length : Nat) : Int) <
      searchLimit l x.clump.contextLengths (sideOf x.done x.clump) (parts.head?.map fun y => sideOf x.done y.clump) offset) ∧
    InReach l (pos + x.gap.length + (sideOf x.done x.clump).items.length)
      ((pos + x.gap.length : Nat) - (sideOf x.done x.clump).start) parts

/-- No limit of a search that is made underflows: of the one for the old lines, if they are not at the expected place, and of the one
for the new lines, if they are looked for and not at the expected place. -/
def NoUnderflow (l : List T) : Nat → Int → List (Stretch T) → Prop
  | _, _, [] => True
  | pos, offset, x :: parts =>
    (x.done = true → ¬ Underflow l x.clump.contextLengths x.clump.before (parts.head?.map fun y => y.clump.before) offset) ∧
    (((pos + x.gap.length : Nat) : Int) ≠ (sideOf x.done x.clump).start + offset →
      ¬ Underflow l x.clump.contextLengths (sideOf x.done x.clump) (parts.head?.map fun y => sideOf x.done y.clump) offset) ∧
    NoUnderflow l (pos + x.gap.length + (sideOf x.done x.clump).items.length)
      ((pos + x.gap.length : Nat) - (sideOf x.done x.clump).start) parts

/-- The number of clumps, applied before (`done`) or not, that are (`moved`) or are not elsewhere than expected, counting from where the
one before was found. -/
def howMany (done moved : Bool) : Nat → Int → List (Stretch T) → Nat
  | _, _, [] => 0
  | pos, offset, x :: parts =>
    (if x.done = done ∧ (moved = true ↔ ((pos + x.gap.length : Nat) : Int) ≠ (sideOf x.done x.clump).start + offset) then 1 else 0) +
      howMany done moved (pos + x.gap.length + (sideOf x.done x.clump).items.length)
        ((pos + x.gap.length : Nat) - (sideOf x.done x.clump).start) parts

theorem head_clump (side : DiffClump T → Snippet T) (parts : List (Stretch T)) :
    (parts.map (·.clump)).head?.map side = parts.head?.map fun x => side x.clump := by
  cases parts <;> rfl

theorem patching_partly [Item T] (p : Profile) (l : List T) (parts : List (Stretch T)) (last front : List T) (pos : Nat)
    (offset : Int) (st : Statistics) (hl : l = front ++ partly parts last) (hpos : front.length = pos)
    (hno : ∀ x ∈ parts, x.done = true → NowhereFits l x.clump.contextLengths x.clump.before)
    (hu : FitsOnce l pos parts) (hroom : p = .debug → NoUnderflow l pos offset parts) (hr : InReach l pos offset parts) :
    Patching p l pos offset st (parts.map (·.clump)) (bytesOf (wholly parts last))
      (.ok { st with
        clean := st.clean + howMany false false pos offset parts
        fuzzy := st.fuzzy + howMany false true pos offset parts
        alreadyApplied := st.alreadyApplied + howMany true false pos offset parts
        alreadyAppliedFuzzy := st.alreadyAppliedFuzzy + howMany true true pos offset parts }) := by
  induction parts generalizing front pos offset st with
  | nil =>
    have := Patching.finish (p := p) (l := l) (k := pos) (offset := offset) (st := st) (by rw [hl]; simp; omega)
    rw [cut_length_eq] at this
    have e : l.drop pos = last := by rw [hl, ← hpos, List.drop_left]; rfl
    rw [e] at this
    exact this
  | cons x parts ih =>
    obtain ⟨hu1, hu2⟩ := hu
    obtain ⟨hr1, hr2⟩ := hr
    have hn := hno _ List.mem_cons_self
    have hst : StandsAt (sideOf x.done x.clump).items l ((pos + x.gap.length : Nat) : Int) := by
      refine ⟨front ++ x.gap, partly parts last, ?_, ?_⟩
      · rw [hl]; simp [partly]
      · rw [List.length_append, hpos]
    obtain ⟨d, hd⟩ : ∃ d : Int, ((pos + x.gap.length : Nat) : Int) = (sideOf x.done x.clump).start + offset + d :=
      ⟨(pos + x.gap.length : Nat) - ((sideOf x.done x.clump).start + offset), by omega⟩
    have hsearch : (d = 0 ∧ FitsHere l offset x.clump.contextLengths (sideOf x.done x.clump) (some .cleanly)) ∨
        (FitsHere l offset x.clump.contextLengths (sideOf x.done x.clump) none ∧
          ¬ (p = .debug ∧ Underflow l x.clump.contextLengths (sideOf x.done x.clump)
            ((parts.map (·.clump)).head?.map (sideOf x.done)) offset) ∧
          Searched l pos offset x.clump.contextLengths (sideOf x.done x.clump) ((parts.map (·.clump)).head?.map (sideOf x.done))
            (some (d, .cleanly))) := by
      by_cases hd0 : d = 0
      · subst hd0
        refine .inl ⟨rfl, ?_⟩
        show StandsAt _ _ _
        rwa [hd, Int.add_zero] at hst
      · refine .inr ⟨hu1 _ (by omega), ?_, ?_, ?_, ?_, ?_⟩
        · rintro ⟨hp, h⟩
          rw [head_clump] at h
          exact (hroom hp).2.1 (by omega) h
        · by_cases h : 0 < d
          · right
            rw [head_clump]
            exact ⟨h, by rw [← hd]; exact hr1 (by omega)⟩
          · left; omega
        · show StandsAt _ _ _
          rwa [← hd]
        · intro d' _ hlt
          exact hu1 _ (by omega)
        · intro hp _
          exact hu1 _ (by omega)
    have hplace : placeOf (sideOf x.done x.clump) (offset + d) .cleanly = pos + x.gap.length := by
      simp only [placeOf, WillApply.redn]
      omega
    have hcov : coveredBy (sideOf x.done x.clump) .cleanly = (sideOf x.done x.clump).items.length := rfl
    have hoff : offset + d = ((pos + x.gap.length : Nat) : Int) - (sideOf x.done x.clump).start := by omega
    have i := fun st => ih (front ++ x.gap ++ (sideOf x.done x.clump).items) (pos + x.gap.length + (sideOf x.done x.clump).items.length)
      (offset + d) st (by rw [hl]; simp [partly]) (by simp only [List.length_append]; omega)
      (fun y hy => hno y (List.mem_cons_of_mem _ hy)) hu2 (fun hp => by rw [hoff]; exact (hroom hp).2.2) (by rw [hoff]; exact hr2)
    have ecut : cut l pos (pos + x.gap.length) = x.gap := by
      rw [hl]
      simp [partly, cut, ← hpos]
    have ecut2 : cut l pos (pos + x.gap.length + (sideOf x.done x.clump).items.length) = x.gap ++ (sideOf x.done x.clump).items := by
      rw [hl]
      simp only [partly, cut, ← hpos, Nat.add_assoc, Nat.add_sub_cancel_left, List.drop_left]
      rw [List.take_left' (by simp)]
    simp only [List.map_cons, howMany]
    rw [← hoff]
    have hroom1 := fun hp => (hroom hp).1
    clear hu1 hu2 hr1 hr2 hroom ih hst
    obtain ⟨gap, c, done⟩ := x
    cases done with
    | false =>
      simp only [sideOf] at *
      have := Patching.apply (st := st) (ls := c.after.items) (d := d) (w := .cleanly) hsearch rfl (by
        rw [hplace, hcov, Nat.max_eq_right (by omega)]
        exact i _)
      rw [hplace, ← bytesOf_append, ← bytesOf_append, ecut] at this
      simp only [wholly]
      by_cases hd0 : d = 0
      · subst hd0
        have e : ((pos + gap.length : Nat) : Int) = c.before.start + offset := by omega
        simp only [Decision.count, and_self, if_true] at this
        simpa [e, Nat.add_assoc] using this
      · have e : (pos : Int) + gap.length ≠ c.before.start + offset := by omega
        simp only [Decision.count, hd0, false_and, if_false] at this
        simpa [e, Nat.add_assoc] using this
    | true =>
      simp only [sideOf, forall_const] at *
      have := Patching.already (st := st) (d := d) (w := .cleanly) (cs := parts.map (·.clump)) ⟨hn _, by
          rintro ⟨hp, h⟩
          rw [head_clump] at h
          exact hroom1 hp h, fun d' _ => hn _, hsearch⟩ (by
        rw [hplace, hcov, Nat.max_eq_right (by omega)]
        exact i _)
      rw [hplace, hcov, ← bytesOf_append, ecut2] at this
      simp only [wholly]
      by_cases hd0 : d = 0
      · subst hd0
        have e : ((pos + gap.length : Nat) : Int) = c.after.start + offset := by omega
        simp only [Decision.count, and_self, if_true] at this
        simpa [e, Nat.add_assoc] using this
      · have e : (pos : Int) + gap.length ≠ c.after.start + offset := by omega
        simp only [Decision.count, hd0, false_and, if_false] at this
        simpa [e, Nat.add_assoc] using this

/-- Conversely, when no clump fails all of them were within reach. -/
theorem inReach_of [Item T] {p : Profile} {l : List T} {parts : List (Stretch T)} {last front : List T} {pos : Nat}
    {offset : Int} {st st' : Statistics} {out : List UInt8} (hl : l = front ++ partly parts last) (hpos : front.length = pos)
    (hno : ∀ x ∈ parts, NowhereFits l x.clump.contextLengths (sideOf (!x.done) x.clump)) (hu : FitsOnce l pos parts)
    (h : Patching p l pos offset st (parts.map (·.clump)) out (.ok st')) (he : st'.failed ≤ st.failed) :
    InReach l pos offset parts ∧ (p = .debug → NoUnderflow l pos offset parts) := by
  induction parts generalizing front pos offset st out with
  | nil => exact ⟨trivial, fun _ => trivial⟩
  | cons x parts ih =>
    obtain ⟨hu1, hu2⟩ := hu
    have hn := hno _ List.mem_cons_self
    have hst : StandsAt (sideOf x.done x.clump).items l ((pos + x.gap.length : Nat) : Int) := by
      refine ⟨front ++ x.gap, partly parts last, ?_, ?_⟩
      · rw [hl]; simp [partly]
      · rw [List.length_append, hpos]
    have step : ∀ (d : Int) (w : WillApply) (st0 : Statistics) (out0 : List UInt8) (k : Nat), st0.failed = st.failed →
        ((d = 0 ∧ FitsHere l offset x.clump.contextLengths (sideOf x.done x.clump) (some w)) ∨
        (FitsHere l offset x.clump.contextLengths (sideOf x.done x.clump) none ∧
          ¬ (p = .debug ∧ Underflow l x.clump.contextLengths (sideOf x.done x.clump)
            ((parts.map (·.clump)).head?.map (sideOf x.done)) offset) ∧
          Searched l pos offset x.clump.contextLengths (sideOf x.done x.clump) ((parts.map (·.clump)).head?.map (sideOf x.done))
            (some (d, w)))) →
        Patching p l k (offset + d) st0 (parts.map (·.clump)) out0 (.ok st') →
        (placeOf (sideOf x.done x.clump) (offset + d) w = pos + x.gap.length →
          k = pos + x.gap.length + coveredBy (sideOf x.done x.clump) w) →
        (p = .debug → x.done = true →
          ¬ Underflow l x.clump.contextLengths x.clump.before (parts.head?.map fun y => y.clump.before) offset) →
        InReach l pos offset (x :: parts) ∧ (p = .debug → NoUnderflow l pos offset (x :: parts)) := by
      intro d w st0 out0 k hst0 hdec hrest hk hund
      have hfit : Fits (sideOf x.done x.clump).items x.clump.contextLengths l ((sideOf x.done x.clump).start + offset + d) (some w) := by
        rcases hdec with ⟨rfl, h⟩ | ⟨-, -, -, h, -⟩
        · simpa [FitsHere] using h
        · exact h
      have hd : (sideOf x.done x.clump).start + offset + d = ((pos + x.gap.length : Nat) : Int) := Decidable.byContradiction fun hne => by
        have := fits_unique (hu1 _ hne) hfit
        cases this
      rw [hd] at hfit
      have hw : some w = some .cleanly := fits_unique hfit hst
      injection hw with hw
      subst hw
      have hplace : placeOf (sideOf x.done x.clump) (offset + d) .cleanly = pos + x.gap.length := by
        simp only [placeOf, WillApply.redn]
        omega
      have hcov : coveredBy (sideOf x.done x.clump) .cleanly = (sideOf x.done x.clump).items.length := rfl
      rw [hk hplace, hcov, show offset + d = ((pos + x.gap.length : Nat) : Int) - (sideOf x.done x.clump).start by omega] at hrest
      have i := ih (front := front ++ x.gap ++ (sideOf x.done x.clump).items) (by rw [hl]; simp [partly])
        (by simp only [List.length_append]; omega) (fun x hx => hno x (List.mem_cons_of_mem _ hx)) hu2 hrest (by omega)
      refine ⟨⟨fun hlt => ?_, i.1⟩, fun hp => ⟨hund hp, fun hne h => ?_, i.2 hp⟩⟩
      · rcases hdec with ⟨rfl, -⟩ | ⟨-, -, h, -⟩
        · omega
        · rw [head_clump] at h
          simp only [InBounds] at h
          rw [hd] at h
          rcases h with h | h
          · omega
          · exact h.2
      · rcases hdec with ⟨rfl, -⟩ | ⟨-, h', -⟩
        · omega
        · rw [head_clump] at h'
          exact h' ⟨hp, h⟩
    clear ih hu1 hu2 hst
    obtain ⟨gap, c, done⟩ := x
    rw [List.map_cons] at h
    cases done with
    | false =>
      simp only [sideOf, Bool.not_false] at step hn
      cases h with
      | apply hdec hwr hrest =>
        exact step _ _ _ _ _ (by simp only [Decision.count]; split <;> rfl) hdec hrest (fun h => by
          show max pos (placeOf c.before _ _) + coveredBy c.before _ = pos + gap.length + coveredBy c.before _
          rw [h]; omega) nofun
      | already hdec hrest =>
        obtain ⟨-, -, -, hdec⟩ := hdec
        rcases hdec with ⟨-, h⟩ | ⟨-, -, -, h, -⟩ <;> cases fits_unique (hn _) h
      | failed _ h =>
        have := h.failedGrow rfl
        simp only [Decision.count] at this
        omega
    | true =>
      simp only [sideOf, Bool.not_true] at step hn
      cases h with
      | apply hdec hwr hrest =>
        rcases hdec with ⟨-, h⟩ | ⟨-, -, -, h, -⟩ <;> cases fits_unique (hn _) h
      | already hdec hrest =>
        obtain ⟨-, hnu, -, hdec⟩ := hdec
        exact step _ _ _ _ _ (by simp only [Decision.count]; split <;> rfl) hdec hrest (fun h => by
          show max pos (placeOf c.after _ _ + coveredBy c.after _) = pos + gap.length + coveredBy c.after _
          rw [h]; omega) (fun hp _ h => by
          rw [head_clump] at hnu
          exact hnu ⟨hp, h⟩)
      | failed _ h =>
        have := h.failedGrow rfl
        simp only [Decision.count] at this
        omega

end

section

variable {T : Type} [DecidableEq T] [Item T] [LawfulItem T]

/-- For one direction the new lines of the clumps that were not applied may be in the file too. -/
theorem C139_found (p q : Profile) (before after : List T) (context : Nat) (hctx : context ≤ 255) (parts : List (Stretch T)) (last : List T)
    (h : diffClumps p before after context = .ok (parts.map (·.clump)))
    (hsz : before.length + after.length + (partly parts last).length ≤ maxLines)
    (hno : ∀ x ∈ parts, x.done = true → NowhereFits (partly parts last) x.clump.contextLengths x.clump.before)
    (hu : FitsOnce (partly parts last) 0 parts) (hr : InReach (partly parts last) 0 0 parts)
    (hroom : q = .debug → NoUnderflow (partly parts last) 0 0 parts) :
    (applyInto q (parts.map (·.clump)) (partly parts last) false).run =
      (.ok { clean := howMany false false 0 0 parts, fuzzy := howMany false true 0 0 parts,
             alreadyApplied := howMany true false 0 0 parts, alreadyAppliedFuzzy := howMany true true 0 0 parts },
        bytesOf (wholly parts last)) := by
  have hd := (diffClumps_full hctx h).1
  have hw := hd.wellFormed (by omega) (by omega)
  have hwt := hd.weight
  simp only [maxLines] at hsz
  rw [C57_refines q (partly parts last) _ hw (by simp only [sizeLimit]; omega)]
  have := patching_partly q _ parts last [] 0 0 {} rfl rfl hno hu hroom hr
  simpa using this

/-- A patch is applied to a file that has, in order, the new lines of some of its clumps (those that are `done`) and the old lines of
the others, and any lines between them. The lines that are there fit nowhere else, and the other side of each clump fits nowhere. Then
the clumps that are `done` are counted as already applied and the others are applied, if and only if every clump that has moved down
stands before the limit of the search (and, in debug builds, no limit underflows). The result has the new lines of all clumps and is
otherwise the same file. -/
theorem C139_exact (p q : Profile) (before after : List T) (context : Nat) (hctx : context ≤ 255) (parts : List (Stretch T)) (last : List T)
    (h : diffClumps p before after context = .ok (parts.map (·.clump)))
    (hsz : before.length + after.length + (partly parts last).length ≤ maxLines)
    (hno : ∀ x ∈ parts, NowhereFits (partly parts last) x.clump.contextLengths (sideOf (!x.done) x.clump))
    (hu : FitsOnce (partly parts last) 0 parts) :
    ((applyInto q (parts.map (·.clump)) (partly parts last) false).run =
      (.ok { clean := howMany false false 0 0 parts, fuzzy := howMany false true 0 0 parts,
             alreadyApplied := howMany true false 0 0 parts, alreadyAppliedFuzzy := howMany true true 0 0 parts },
        bytesOf (wholly parts last)) ↔
      InReach (partly parts last) 0 0 parts ∧ (q = .debug → NoUnderflow (partly parts last) 0 0 parts)) ∧
    ∀ st out, (applyInto q (parts.map (·.clump)) (partly parts last) false).run = (.ok st, out) → st.failed = 0 →
      out = bytesOf (wholly parts last) := by
  have hd := (diffClumps_full hctx h).1
  have hw := hd.wellFormed (by omega) (by omega)
  have hwt := hd.weight
  simp only [maxLines] at hsz
  have href := C57_refines q (partly parts last) _ hw (by simp only [sizeLimit]; omega)
  have hto : InReach (partly parts last) 0 0 parts ∧ (q = .debug → NoUnderflow (partly parts last) 0 0 parts) →
      (applyInto q (parts.map (·.clump)) (partly parts last) false).run =
      (.ok { clean := howMany false false 0 0 parts, fuzzy := howMany false true 0 0 parts,
             alreadyApplied := howMany true false 0 0 parts, alreadyAppliedFuzzy := howMany true true 0 0 parts },
        bytesOf (wholly parts last)) := by
    rintro ⟨hr, hroom⟩
    exact C139_found p q before after context hctx parts last h (by simpa only [maxLines] using hsz)
      (fun x hx hxd => by have := hno x hx; rwa [hxd] at this) hu hr hroom
  refine ⟨⟨fun hrun => inReach_of (front := []) rfl rfl hno hu ((href _ _).1 hrun) (Nat.le_refl _), hto⟩, ?_⟩
  intro st out hrun e
  have := hto (inReach_of (front := []) rfl rfl hno hu ((href _ _).1 hrun) (by rw [e]; exact Nat.zero_le _))
  rw [hrun] at this
  exact (Prod.mk.injEq .. ▸ this).2

omit [Item T] [LawfulItem T] in
theorem fitsOnce_of_once {l last front : List T} {pos : Nat} {parts : List (Stretch T)} (hl : l = front ++ partly parts last)
    (hpos : front.length = pos)
    (h : ∀ x ∈ parts, ∃ y ∈ trim x.clump.contextLengths (sideOf x.done x.clump).items, l.count y = 1) : FitsOnce l pos parts := by
  induction parts generalizing front pos with
  | nil => trivial
  | cons x parts ih =>
    obtain ⟨y, hy, h1⟩ := h x List.mem_cons_self
    refine ⟨fun z hz => fits_once (place := (pos + x.gap.length : Nat)) ⟨front ++ x.gap, partly parts last, ?_, ?_⟩ hy h1 hz,
      ih (front := front ++ x.gap ++ (sideOf x.done x.clump).items) (by rw [hl]; simp [partly]) (by simp only [List.length_append]; omega)
      (fun x hx => h x (List.mem_cons_of_mem _ hx))⟩
    · rw [hl]; simp [partly]
    · rw [List.length_append, hpos]

/-- Of the side of the clump that is there a line outside the context is in the file only once, and of the other side one is not. -/
def TellTale {T : Type} [DecidableEq T] (l : List T) (x : Stretch T) : Prop :=
  (∃ y ∈ trim x.clump.contextLengths (sideOf x.done x.clump).items, l.count y = 1) ∧
    ∃ y ∈ trim x.clump.contextLengths (sideOf (!x.done) x.clump).items, y ∉ l

instance {T : Type} [DecidableEq T] (l : List T) (x : Stretch T) : Decidable (TellTale l x) := by
  unfold TellTale
  infer_instance

/-- It is enough that the lines that are there are recognised by one that is in the file only once, and the others by one that is not in
it. -/
theorem C139_once (p : Profile) (before after : List T) (context : Nat) (hctx : context ≤ 255) (parts : List (Stretch T)) (last : List T)
    (h : diffClumps p before after context = .ok (parts.map (·.clump)))
    (hsz : before.length + after.length + (partly parts last).length ≤ maxLines)
    (ht : ∀ x ∈ parts, TellTale (partly parts last) x) (hr : InReach (partly parts last) 0 0 parts) :
    (applyInto .release (parts.map (·.clump)) (partly parts last) false).run =
      (.ok { clean := howMany false false 0 0 parts, fuzzy := howMany false true 0 0 parts,
             alreadyApplied := howMany true false 0 0 parts, alreadyAppliedFuzzy := howMany true true 0 0 parts },
        bytesOf (wholly parts last)) := by
  refine (C139_exact p .release before after context hctx parts last h hsz (fun x hx => ?_)
    (fitsOnce_of_once (front := []) rfl rfl fun x hx => (ht x hx).1)).1.2 ⟨hr, fun h => nomatch h⟩
  obtain ⟨y, hy, hm⟩ := (ht x hx).2
  exact nowhere_of_missing hy hm

end

/-- In the program: the exit status is 0 and the file has the new lines of all clumps. -/
theorem C139_program (p : Profile) (temp patch target : Path) (w : World) (hf : w.faults = []) (d : TextChangeDiff)
    (hp : HoldsDiff w.fs patch (.textChange d)) (htg : d.beforePath = target) (hfree : w.fs.node (w.fs.entry temp) = none)
    (before after : List Str) (context : Nat) (hctx : context ≤ 255) (parts : List (Stretch Str)) (last : List Str)
    (hd : d.clumps = parts.map (·.clump)) (h : diffClumps p before after context = .ok d.clumps)
    (s : Str) (hold : w.fs.contentAt target = some ⟨s.bytes, false⟩) (hs : splitInclusive s = partly parts last)
    (hsz : before.length + after.length + (splitInclusive s).length ≤ maxLines)
    (ht : ∀ x ∈ parts, TellTale (splitInclusive s) x) (hr : InReach (splitInclusive s) 0 0 parts) :
    (pwPatch .release temp patch false).run w = (.exited 0,
      { w with fs := w.fs.set (w.fs.entry target) (some (.file (bytesOf (wholly parts last)))) }) := by
  subst htg
  refine C46_normal .release temp patch d.beforePath false w (.textChange d) hp rfl hf hfree hold
    ⟨s, { clean := howMany false false 0 0 parts, fuzzy := howMany false true 0 0 parts,
          alreadyApplied := howMany true false 0 0 parts, alreadyAppliedFuzzy := howMany true true 0 0 parts }, rfl, ?_⟩
  rw [hs] at hsz ht hr ⊢
  rw [hd] at h ⊢
  exact C139_once p before after context hctx parts last h hsz ht hr

/-- The file of C137, with the first clump applied. -/
def firstDone : List (Stretch Str) :=
  [⟨letters ['a', 'N', 'b'], ⟨(1, 1), ⟨2, letters ['c', 'd', 'e']⟩, ⟨2, letters ['c', 'X', 'Y', 'e']⟩⟩, true⟩,
   ⟨[], ⟨(1, 1), ⟨6, letters ['g', 'h', 'i']⟩, ⟨7, letters ['g', 'Z', 'W', 'i']⟩⟩, false⟩]

/-- The same file with the second clump applied. -/
def secondDone : List (Stretch Str) :=
  [⟨letters ['a', 'N', 'b'], ⟨(1, 1), ⟨2, letters ['c', 'd', 'e']⟩, ⟨2, letters ['c', 'X', 'Y', 'e']⟩⟩, false⟩,
   ⟨[], ⟨(1, 1), ⟨6, letters ['g', 'h', 'i']⟩, ⟨7, letters ['g', 'Z', 'W', 'i']⟩⟩, true⟩]

theorem firstDone_reach : InReach (partly firstDone (letters ['j', 'k'])) 0 0 firstDone := ⟨by decide +kernel, by decide +kernel, trivial⟩
theorem secondDone_reach : InReach (partly secondDone (letters ['j', 'k'])) 0 0 secondDone := ⟨by decide +kernel, by decide +kernel, trivial⟩

example : (applyInto .release (wovenParts.map (·.2)) (letters ['a', 'N', 'b', 'c', 'X', 'Y', 'e', 'g', 'h', 'i', 'j', 'k']) false).run =
    (.ok { clean := 1, alreadyAppliedFuzzy := 1 }, bytesOf (letters ['a', 'N', 'b', 'c', 'X', 'Y', 'e', 'g', 'Z', 'W', 'i', 'j', 'k'])) :=
  C139_once .debug _ _ 1 (by decide) firstDone (letters ['j', 'k']) woven_diff (by decide +kernel) (by decide +kernel) firstDone_reach

example : (applyInto .release (wovenParts.map (·.2)) (letters ['a', 'N', 'b', 'c', 'd', 'e', 'g', 'Z', 'W', 'i', 'j', 'k']) false).run =
    (.ok { fuzzy := 1, alreadyAppliedFuzzy := 1 }, bytesOf (letters ['a', 'N', 'b', 'c', 'X', 'Y', 'e', 'g', 'Z', 'W', 'i', 'j', 'k'])) :=
  C139_once .debug _ _ 1 (by decide) secondDone (letters ['j', 'k']) woven_diff (by decide +kernel) (by decide +kernel) secondDone_reach

/-- Debug builds too. -/
example : (applyInto .debug (firstDone.map (·.clump)) (partly firstDone (letters ['j', 'k'])) false).run =
    (.ok { clean := 1, alreadyAppliedFuzzy := 1 }, bytesOf (wholly firstDone (letters ['j', 'k']))) :=
  (C139_exact .debug .debug _ _ 1 (by decide) firstDone (letters ['j', 'k']) woven_diff (by decide +kernel)
    (fun x hx => by
      have : ∀ x ∈ firstDone, nowhereB (partly firstDone (letters ['j', 'k'])) x.clump.contextLengths (sideOf (!x.done) x.clump) = true := by
        decide +kernel
      exact nowhere_of_check (this x hx))
    (fitsOnce_of_once (last := letters ['j', 'k']) (front := []) rfl rfl (by decide +kernel))).1.2
    ⟨firstDone_reach, fun _ => ⟨by unfold Underflow; decide +kernel, by unfold Underflow; decide +kernel,
      by unfold Underflow; decide +kernel, by unfold Underflow; decide +kernel, trivial⟩⟩

/-- What one may expect: applying a patch to a file to which some of its clumps, and nothing else, have been applied gives the patched
file. -/
def C139_statement : Prop :=
  ∀ (p q : Profile) (before after : List Str) (context : Nat) (parts : List (Stretch Str)) (last : List Str),
    context ≤ 255 → diffClumps p before after context = .ok (parts.map (·.clump)) → wholly parts last = after →
    (∀ x ∈ parts, TellTale (partly parts last) x) →
    (applyInto q (parts.map (·.clump)) (partly parts last) false).run.2 = bytesOf after

/-- That is not so: the first clump adds five lines, so the second is not found below the place where the third is expected. -/
theorem C139_refuted : ¬ C139_statement := by
  intro h
  have hx := h .debug .release (letters ['a', 'b', 'c', 'd', 'e', 'f', 'g', 'h', 'i', 'j'])
    (letters ['a', 'U', 'V', 'W', 'X', 'Y', 'Z', 'c', 'd', 'E', 'G', 'f', 'g', 'H', 'K', 'i', 'j']) 1
    [⟨[], ⟨(1, 1), ⟨0, letters ['a', 'b', 'c']⟩, ⟨0, letters ['a', 'U', 'V', 'W', 'X', 'Y', 'Z', 'c']⟩⟩, true⟩,
     ⟨[], ⟨(1, 1), ⟨3, letters ['d', 'e', 'f']⟩, ⟨8, letters ['d', 'E', 'G', 'f']⟩⟩, false⟩,
     ⟨[], ⟨(1, 1), ⟨6, letters ['g', 'h', 'i']⟩, ⟨12, letters ['g', 'H', 'K', 'i']⟩⟩, false⟩] (letters ['j']) (by decide)
    (by decide +kernel) (by decide +kernel) (by decide +kernel)
  revert hx
  decide +kernel

/-- The situation: in `A` only the first clump was applied, `C` holds the patch. -/
example : ∃ w r, (pwPatch .release [84] [67] false).run w = (.exited 0, r) ∧
    w.fs.contentAt [65] = some ⟨bytesOf (letters ['a', 'N', 'b', 'c', 'X', 'Y', 'e', 'g', 'h', 'i', 'j', 'k']), false⟩ ∧
    r.fs.contentAt [65] = some ⟨bytesOf (letters ['a', 'N', 'b', 'c', 'X', 'Y', 'e', 'g', 'Z', 'W', 'i', 'j', 'k']), false⟩ := by
  obtain ⟨e1, e2, e3, e3', e4, e5, e6, e6', e7, e8⟩ := FS.ofFiles_two
    (bytesOf (letters ['a', 'N', 'b', 'c', 'X', 'Y', 'e', 'g', 'h', 'i', 'j', 'k']))
    (Diff.textChange ⟨[65], [66], firstDone.map (·.clump)⟩).fileContent
  generalize FS.ofFiles [([65], _), ([67], _)] = fs at *
  have e : splitInclusive (letters ['a', 'N', 'b', 'c', 'X', 'Y', 'e', 'g', 'h', 'i', 'j', 'k']).flatten =
      partly firstDone (letters ['j', 'k']) := by decide +kernel
  have h := C139_program .debug [84] [67] [65] ⟨fs, [], []⟩ rfl ⟨[65], [66], firstDone.map (·.clump)⟩ ?_ rfl ?_
    _ _ 1 (by decide) firstDone (letters ['j', 'k']) rfl woven_diff
    (letters ['a', 'N', 'b', 'c', 'X', 'Y', 'e', 'g', 'h', 'i', 'j', 'k']).flatten ?_ e (by decide +kernel) (by decide +kernel)
    (by rw [e]; exact firstDone_reach)
  · refine ⟨_, _, h, e7, ?_⟩
    exact FS.contentAt_of_file (by simp; rfl)
  · refine holdsDiff_of_file ?_ ?_ e8
    · intro c hc
      simp only [firstDone, List.map_cons, List.map_nil, List.mem_cons, List.not_mem_nil, or_false] at hc
      rcases hc with rfl | rfl <;> simp [DiffClump.InRange, wordSize]
    · intro path h
      simp only [Diff.paths, List.mem_cons, List.not_mem_nil, or_false] at h
      rcases h with rfl | rfl
      · exact ⟨['A'], by decide⟩
      · exact ⟨['B'], by decide⟩
  · show fs.node (fs.entry [84]) = none
    rw [e3, e6']
  · exact e7.trans (by decide +kernel)

end PwDiff
