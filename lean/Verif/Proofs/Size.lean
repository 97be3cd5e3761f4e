import Verif.Proofs.Written

/-! # How much applying a patch can write -/

namespace PwDiff

open ChangeBasics TextClump

variable {α β T : Type}

/-- On a writer that does not fail the computation writes at most `budget` bytes; if it ends well, then the result and what is left
of the budget satisfy `R`. -/
structure WM.Spends (budget : Nat) (m : WM α) (R : α → Nat → Prop) : Prop where
  at_ : ∀ out, ∃ bs, (m ⟨out, none⟩).2 = ⟨out ++ bs, none⟩ ∧ bs.length ≤ budget ∧
    ∀ a, (m ⟨out, none⟩).1 = .ok a → R a (budget - bs.length)

theorem WM.Spends.lift {n : Nat} (o : Outcome α) : WM.Spends n (WM.lift o) fun a left => o = .ok a ∧ left = n :=
  ⟨fun out => ⟨[], by simp [WM.lift], by simp, fun _ h => ⟨h, rfl⟩⟩⟩

theorem WM.Spends.liftM {n : Nat} (o : Outcome α) : WM.Spends n (liftM o : WM α) fun a left => o = .ok a ∧ left = n :=
  WM.Spends.lift o

theorem WM.Spends.pure {n : Nat} (a : α) : WM.Spends n (Pure.pure a : WM α) fun b left => b = a ∧ left = n :=
  ⟨fun out => ⟨[], by simp [Pure.pure], by simp, fun b h => ⟨(Outcome.ok_inj h).symm, rfl⟩⟩⟩

theorem WM.Spends.writeAll {n : Nat} {bs : List UInt8} (h : bs.length ≤ n) :
    WM.Spends n (PwDiff.writeAll bs) fun _ left => left = n - bs.length :=
  ⟨fun _ => ⟨bs, rfl, h, fun _ _ => rfl⟩⟩

theorem WM.Spends.mono {n : Nat} {m : WM α} {R S : α → Nat → Prop} (h : WM.Spends n m R)
    (hS : ∀ a left, R a left → S a left) : WM.Spends n m S :=
  ⟨fun out => let ⟨bs, h1, h2, h3⟩ := h.at_ out; ⟨bs, h1, h2, fun a ha => hS a _ (h3 a ha)⟩⟩

theorem WM.Spends.more {n : Nat} {m : WM α} {R : α → Nat → Prop} (h : WM.Spends n m R) (k : Nat) :
    WM.Spends (n + k) m fun a left => ∃ left', R a left' ∧ left = left' + k :=
  ⟨fun out => let ⟨bs, h1, h2, h3⟩ := h.at_ out; ⟨bs, h1, by omega, fun a ha => ⟨_, h3 a ha, by omega⟩⟩⟩

theorem WM.Spends.bind {n : Nat} {m : WM α} {f : α → WM β} {R : α → Nat → Prop}
    {S : β → Nat → Prop} (hm : WM.Spends n m R)
    (hf : ∀ a left, R a left → WM.Spends left (f a) S) : WM.Spends n (m >>= f) S := by
  constructor
  intro out
  obtain ⟨bs, h1, h2, h3⟩ := hm.at_ out
  change ∃ bs : List UInt8, (WM.bind m f _).2 = _ ∧ bs.length ≤ n ∧ ∀ a, (WM.bind m f _).1 = _ → _
  unfold WM.bind
  generalize m ⟨out, none⟩ = x at h1 h3
  obtain ⟨o, w⟩ := x
  simp only at h1 h3
  subst h1
  cases o with
  | ok a =>
    obtain ⟨bs', e1, e2, e3⟩ := (hf a _ (h3 a rfl)).at_ (out ++ bs)
    refine ⟨bs ++ bs', by rw [← List.append_assoc]; exact e1, by rw [List.length_append]; omega, fun b hb => ?_⟩
    have := e3 b hb
    rw [List.length_append, Nat.sub_add_eq]
    exact this
  | ioErr => exact ⟨bs, rfl, h2, nofun⟩
  | panic => exact ⟨bs, rfl, h2, nofun⟩
  | diverge => exact ⟨bs, rfl, h2, nofun⟩

/-! ## Parts of a file -/

section

variable [Item T]

/-- The number of bytes of some lines. -/
def sizeOfItems (l : List T) : Nat := (bytesOf l).length

theorem sizeOfItems_append (l m : List T) : sizeOfItems (l ++ m) = sizeOfItems l + sizeOfItems m := by
  simp [sizeOfItems]

theorem sizeOfItems_take_drop (l : List T) (n : Nat) : sizeOfItems (l.take n) + sizeOfItems (l.drop n) = sizeOfItems l := by
  rw [← sizeOfItems_append, List.take_append_drop]

theorem sizeOfItems_drop_le (l : List T) (n : Nat) : sizeOfItems (l.drop n) ≤ sizeOfItems l := by
  have := sizeOfItems_take_drop l n
  omega

theorem sizeOfItems_take_le (l : List T) (n : Nat) : sizeOfItems (l.take n) ≤ sizeOfItems l := by
  have := sizeOfItems_take_drop l n
  omega

theorem sizeOfItems_drop_mono (l : List T) {n m : Nat} (h : n ≤ m) : sizeOfItems (l.drop m) ≤ sizeOfItems (l.drop n) := by
  obtain ⟨k, rfl⟩ := Nat.exists_eq_add_of_le h
  rw [← List.drop_drop]
  exact sizeOfItems_drop_le _ _

omit [Item T] in
theorem slice_some {l ls : List T} {a b : Nat} (h : slice l a b = .ok ls) : a ≤ b ∧ b ≤ l.length ∧ ls = (l.drop a).take (b - a) := by
  unfold slice at h
  split at h
  · next hab => exact ⟨hab.1, hab.2, (Outcome.ok_inj h).symm⟩
  · cases h

theorem slice_size {l ls : List T} {a b : Nat} (h : slice l a b = .ok ls) : sizeOfItems ls ≤ sizeOfItems l := by
  rw [(slice_some h).2.2]
  exact Nat.le_trans (sizeOfItems_take_le _ _) (sizeOfItems_drop_le _ _)

/-- What has not been copied yet. -/
def ConsumableSeq.rest (pd : ConsumableSeq T) : Nat := sizeOfItems (pd.sequence.drop pd.consumed)

theorem spends_writeLines {n : Nat} {l : List T} (h : sizeOfItems l ≤ n) :
    WM.Spends n (writeLines l) fun _ left => left = n - sizeOfItems l := by
  induction l generalizing n with
  | nil => exact (WM.Spends.pure ()).mono fun _ _ h => by rw [h.2]; rfl
  | cons x xs ih =>
    have hs : sizeOfItems (x :: xs) = (Item.bytes x).length + sizeOfItems xs := by simp [sizeOfItems, bytesOf]
    unfold writeLines
    refine (WM.Spends.writeAll (by omega)).bind fun _ left hl => ?_
    subst hl
    exact (ih (by omega)).mono fun _ left hl => by omega

end

section

variable [DecidableEq T] [Item T] [LawfulItem T]

theorem spends_writeItems {n : Nat} {l : List T} (h : sizeOfItems l ≤ n) :
    WM.Spends n (Item.writeItems l) fun _ left => left = n - sizeOfItems l := by
  rw [LawfulItem.writeItems_eq]
  exact WM.Spends.writeAll h

theorem spends_writeInto (p : Profile) (l : List T) (r : Range) {n : Nat}
    (h : sizeOfItems ((l.drop r.start).take (r.fin - r.start)) ≤ n) :
    WM.Spends n (writeInto p l r) fun _ left => r.start ≤ r.fin ∧ r.fin ≤ l.length ∧
      left = n - sizeOfItems ((l.drop r.start).take (r.fin - r.start)) := by
  unfold writeInto
  refine (WM.Spends.liftM _).bind fun _ left hl => ?_
  obtain ⟨-, rfl⟩ := hl
  refine (WM.Spends.liftM _).bind fun items left hl => ?_
  obtain ⟨hi, rfl⟩ := hl
  obtain ⟨h1, h2, rfl⟩ := slice_some hi
  exact (spends_writeItems h).mono fun _ left hl => ⟨h1, h2, hl⟩

theorem spends_writeIntoUpto (p : Profile) (pd : ConsumableSeq T) (upto extra : Nat) :
    WM.Spends (pd.rest + extra) (pd.writeIntoUpto p upto) fun pd' left =>
      pd'.rest + extra ≤ left ∧ pd'.sequence = pd.sequence ∧ pd'.consumed ≤ max pd.consumed pd.sequence.length := by
  unfold ConsumableSeq.writeIntoUpto
  refine (WM.Spends.liftM _).bind fun _ left hl => ?_
  obtain ⟨-, rfl⟩ := hl
  split
  · next hlt =>
    have hsz : sizeOfItems ((pd.sequence.drop pd.consumed).take (upto - pd.consumed)) + sizeOfItems (pd.sequence.drop upto) = pd.rest := by
      have := sizeOfItems_take_drop (pd.sequence.drop pd.consumed) (upto - pd.consumed)
      rw [List.drop_drop, show pd.consumed + (upto - pd.consumed) = upto by omega] at this
      exact this
    refine (spends_writeInto p pd.sequence ⟨pd.consumed, upto⟩ (by simp only; omega)).bind fun _ left hl => ?_
    simp only at hl
    refine (WM.Spends.pure _).mono fun pd' left hl => ?_
    obtain ⟨rfl, rfl⟩ := hl
    refine ⟨?_, rfl, ?_⟩
    · show sizeOfItems (pd.sequence.drop upto) + extra ≤ _
      omega
    · show upto ≤ _
      omega
  · refine (WM.Spends.pure _).mono fun pd' left hl => ?_
    obtain ⟨rfl, rfl⟩ := hl
    exact ⟨Nat.le_refl _, rfl, by omega⟩

theorem spends_writeRemainder (p : Profile) (pd : ConsumableSeq T) (extra : Nat) :
    WM.Spends (pd.rest + extra) (pd.writeRemainder p) fun _ left => extra ≤ left := by
  unfold ConsumableSeq.writeRemainder
  have hsz : sizeOfItems ((pd.sequence.drop pd.consumed).take (pd.sequence.length - pd.consumed)) ≤ pd.rest :=
    sizeOfItems_take_le _ _
  refine (spends_writeInto p pd.sequence ⟨pd.consumed, pd.sequence.length⟩ (by simp only; omega)).bind fun _ left hl => ?_
  simp only at hl
  refine (WM.Spends.pure _).mono fun pd' left hl => ?_
  obtain ⟨-, rfl⟩ := hl
  omega

end

/-! ## Text patches -/

section clump

variable {C : Type} [TextClump C T] [Item T]

/-- The side of a clump that `reverse` selects consists of `items`: what it delivers is no larger, and it delivers only parts of
them. -/
structure SideHas (p : Profile) (c : C) (reverse : Bool) (items : List T) : Prop where
  size : ∀ range ls, beforeLines p c range reverse = .ok ls → sizeOfItems ls ≤ sizeOfItems items
  part : ∀ r ls, beforeLines p c (some r) reverse = .ok ls → r.start ≤ r.fin ∧ r.fin ≤ items.length

variable {p : Profile} {c : C} {reverse : Bool} {old new : List T}

theorem spends_beforeWriteInto (h : SideHas p c reverse old) (reductions : Option (Nat × Nat)) (extra : Nat) :
    WM.Spends (sizeOfItems old + extra) (beforeWriteInto p c reductions reverse) fun _ left => extra ≤ left := by
  unfold beforeWriteInto
  cases reductions with
  | none =>
    refine (WM.Spends.liftM _).bind fun ls left hl => ?_
    obtain ⟨hls, rfl⟩ := hl
    have := h.size _ _ hls
    exact (spends_writeLines (by omega)).mono fun _ _ hl => by omega
  | some r =>
    refine (WM.Spends.liftM _).bind fun _ left hl => ?_
    obtain ⟨-, rfl⟩ := hl
    refine (WM.Spends.liftM _).bind fun ls left hl => ?_
    obtain ⟨hls, rfl⟩ := hl
    have := h.size _ _ hls
    exact (spends_writeLines (by omega)).mono fun _ _ hl => by omega

theorem spends_failure (h : SideHas p c reverse old) (h' : SideHas p c (!reverse) new) (extra : Nat) :
    WM.Spends (24 + sizeOfItems old + sizeOfItems new + extra) (writeFailureDataInto p c reverse) fun _ left => extra ≤ left := by
  unfold writeFailureDataInto
  refine (WM.Spends.writeAll (by simp [markerBefore]; omega)).bind fun _ left hl => ?_
  subst hl
  rw [show 24 + sizeOfItems old + sizeOfItems new + extra - markerBefore.length
    = sizeOfItems old + (16 + sizeOfItems new + extra) by simp [markerBefore]; omega]
  refine (spends_beforeWriteInto h _ _).bind fun _ left hl => ?_
  refine (WM.Spends.writeAll (by simp [markerMiddle]; omega)).bind fun _ left' hl' => ?_
  subst hl'
  have e : left - markerMiddle.length = sizeOfItems new + (left - 8 - sizeOfItems new) := by simp [markerMiddle]; omega
  rw [e]
  refine (spends_beforeWriteInto h' _ _).bind fun _ left' hl' => ?_
  exact (WM.Spends.writeAll (by simp [markerAfter]; omega)).mono fun _ _ hl'' => by
    simp [markerAfter] at hl''; omega

/-- The reductions a clump is applied with leave something that is inside the clump. -/
def Within (p : Profile) (c : C) (reverse : Bool) (old : List T) (reductions : Option (Nat × Nat)) : Prop :=
  ∀ l, beforeAdjustedLength p c reductions reverse = .ok l → l ≤ old.length

omit [Item T] in
theorem usub_some {p : Profile} {a b x : Nat} (h : usub p a b = .ok x) :
    (b ≤ a ∧ x = a - b) ∨ (a < b ∧ x = (wordSize + a - b) % wordSize) := by
  unfold usub at h
  split at h
  · next hb => exact .inl ⟨hb, (Outcome.ok_inj h).symm⟩
  · next hb =>
    cases p with
    | debug => cases h
    | release => exact .inr ⟨by omega, (Outcome.ok_inj h).symm⟩

theorem within_of_hit [DecidableEq T] (h : SideHas p c reverse old) {l : List T} {pos : Nat} {reductions : Option (Nat × Nat)}
    (hr : ∀ r, reductions = some r → r.2 + old.length < wordSize)
    (hit : beforeIsSubsequenceInAt p c l pos reductions reverse = .ok true) : Within p c reverse old reductions := by
  unfold beforeIsSubsequenceInAt at hit
  have hb : ∀ range, myBeforeRange p c reductions reverse = .ok range → range.start ≤ range.fin ∧ range.fin ≤ old.length := by
    intro range hrange
    rw [hrange] at hit
    simp only [Outcome.ok_bind] at hit
    generalize uadd p pos range.len = f at hit
    cases f with
    | ok fin =>
      simp only [Outcome.ok_bind] at hit
      split at hit
      · cases hit
      · generalize hls : beforeLines p c (some range) reverse = ls at hit
        cases ls with
        | ok ls => exact h.part _ _ hls
        | _ => cases hit
    | _ => cases hit
  have hok : ∃ range, myBeforeRange p c reductions reverse = .ok range := by
    generalize myBeforeRange p c reductions reverse = range at hit
    cases range with
    | ok range => exact ⟨range, rfl⟩
    | _ => cases hit
  obtain ⟨range, hrange⟩ := hok
  obtain ⟨h1, h2⟩ := hb range hrange
  intro l hl
  unfold myBeforeRange at hrange
  cases reductions with
  | none =>
    unfold beforeAdjustedLength at hl
    simp only at hl
    rw [hl] at hrange
    simp only [Outcome.ok_bind] at hrange
    obtain rfl := Outcome.ok_inj hrange
    exact h2
  | some r =>
    obtain ⟨r0, r1⟩ := r
    have hr1 := hr _ rfl
    unfold beforeAdjustedLength at hl
    simp only at hl hrange hr1
    generalize beforeLength p c reverse = len at hl hrange
    cases len with
    | ok n =>
      simp only [Outcome.ok_bind] at hl hrange
      generalize he : usub p n r1 = e at hrange
      cases e with
      | ok e =>
        simp only [Outcome.ok_bind] at hrange
        obtain rfl := Outcome.ok_inj hrange
        simp only at h1 h2
        rcases usub_some he with ⟨h3, rfl⟩ | ⟨h3, rfl⟩
        · rw [usub_ok (by omega)] at hl
          simp only [Outcome.ok_bind] at hl
          rw [usub_ok (by omega)] at hl
          have := Outcome.ok_inj hl
          omega
        · rw [Nat.mod_eq_of_lt (by omega)] at h2
          omega
      | _ => cases hrange
    | _ => cases hl

/-- The reductions of an answer of `will_apply`. -/
def WillApply.reductions : WillApply → Option (Nat × Nat)
  | .cleanly => none
  | .withReductions r => some r

theorem Outcome.bind_ok {o : Outcome α} {f : α → Outcome β} {b : β} (h : (o >>= f) = .ok b) : ∃ a, o = .ok a ∧ f a = .ok b := by
  cases o with
  | ok a => exact ⟨a, rfl, h⟩
  | _ => cases h

theorem within_reductionLoop [DecidableEq T] (h : SideHas p c reverse old) (hc : (contextLengths c).2 + old.length < wordSize)
    {l : List T} {start : Int} {w : WillApply} (rs : List Nat)
    (hw : reductionLoop p c l start reverse rs = .ok (some w)) : Within p c reverse old w.reductions := by
  induction rs with
  | nil => cases hw
  | cons redn rest ih =>
    unfold reductionLoop at hw
    obtain ⟨adj, -, hw⟩ := Outcome.bind_ok hw
    dsimp only at hw
    split at hw
    · obtain ⟨hit, hhit, hw⟩ := Outcome.bind_ok hw
      obtain rfl := Outcome.ok_inj hhit
      exact ih hw
    · obtain ⟨hit, hhit, hw⟩ := Outcome.bind_ok hw
      cases hit with
      | false => exact ih hw
      | true =>
        obtain rfl := Option.some.inj (Outcome.ok_inj hw)
        refine within_of_hit h (fun r hr => ?_) hhit
        obtain rfl := Option.some.inj hr
        have : min redn (contextLengths c).2 ≤ (contextLengths c).2 := Nat.min_le_right _ _
        exact Nat.lt_of_le_of_lt (Nat.add_le_add_right this _) hc

theorem within_willApply [DecidableEq T] (h : SideHas p c reverse old) (hc : (contextLengths c).2 + old.length < wordSize)
    {l : List T} {offset : Int} {w : WillApply}
    (hw : willApply p c l offset reverse = .ok (some w)) : Within p c reverse old w.reductions := by
  unfold willApply at hw
  obtain ⟨start, -, hw⟩ := Outcome.bind_ok hw
  dsimp only at hw
  split at hw
  · obtain ⟨hit, hhit, hw⟩ := Outcome.bind_ok hw
    obtain rfl := Outcome.ok_inj hhit
    exact within_reductionLoop h hc _ hw
  · obtain ⟨hit, hhit, hw⟩ := Outcome.bind_ok hw
    cases hit with
    | true =>
      obtain rfl := Option.some.inj (Outcome.ok_inj hw)
      exact within_of_hit h nofun hhit
    | false => exact within_reductionLoop h hc _ hw

theorem within_nearbyLoop [DecidableEq T] (h : SideHas p c reverse old) (hc : (contextLengths c).2 + old.length < wordSize)
    {pd : ConsumableSeq T} {notAfter : Nat} {offset : Int} {w : Int × WillApply} (fuel : Nat) (i : Int) (bd fd : Bool)
    (hw : nearbyLoop p c pd notAfter offset reverse fuel i bd fd = .ok (some w)) : Within p c reverse old w.2.reductions := by
  induction fuel generalizing i bd fd with
  | zero => cases hw
  | succ fuel ih =>
    unfold nearbyLoop at hw
    obtain ⟨_, -, hw⟩ := Outcome.bind_ok hw
    obtain ⟨⟨found, bd'⟩, hb, hw⟩ := Outcome.bind_ok hw
    cases found with
    | some w' =>
      obtain ⟨_, -, hw⟩ := Outcome.bind_ok hw
      obtain rfl := Option.some.inj (Outcome.ok_inj hw)
      unfold nearbyBackward at hb
      split at hb
      · cases hb
      · obtain ⟨_, -, hb⟩ := Outcome.bind_ok hb
        obtain ⟨_, -, hb⟩ := Outcome.bind_ok hb
        split at hb
        · cases hb
        · obtain ⟨w'', hw'', hb⟩ := Outcome.bind_ok hb
          have := congrArg Prod.fst (Outcome.ok_inj hb)
          simp only at this
          subst this
          exact within_willApply h hc hw''
    | none =>
      obtain ⟨⟨found, fd'⟩, hf, hw⟩ := Outcome.bind_ok hw
      cases found with
      | some w' =>
        obtain rfl := Option.some.inj (Outcome.ok_inj hw)
        unfold nearbyForward at hf
        split at hf
        · cases hf
        · obtain ⟨_, -, hf⟩ := Outcome.bind_ok hf
          obtain ⟨_, -, hf⟩ := Outcome.bind_ok hf
          split at hf
          · obtain ⟨w'', hw'', hf⟩ := Outcome.bind_ok hf
            have := congrArg Prod.fst (Outcome.ok_inj hf)
            simp only at this
            subst this
            exact within_willApply h hc hw''
          · cases hf
      | none =>
        simp only at hw
        split at hw
        · cases hw
        · exact ih _ _ _ hw

theorem within_willApplyNearby [DecidableEq T] (h : SideHas p c reverse old) (hc : (contextLengths c).2 + old.length < wordSize)
    {pd : ConsumableSeq T} {next : Option C} {offset : Int} {w : Int × WillApply}
    (hw : willApplyNearby p c pd next offset reverse = .ok (some w)) : Within p c reverse old w.2.reductions := by
  unfold willApplyNearby at hw
  obtain ⟨_, -, hw⟩ := Outcome.bind_ok hw
  exact within_nearbyLoop h hc _ _ _ _ hw

variable [DecidableEq T] [LawfulItem T]

/-- What a step leaves: the file is the same, not too much of it is passed over, and what is left of the budget pays for the rest of the
file. -/
def StepLeft (pd : ConsumableSeq T) (old : List T) (extra : Nat) (pd' : ConsumableSeq T) (left : Nat) : Prop :=
  pd'.rest + extra ≤ left ∧ pd'.sequence = pd.sequence ∧ pd'.consumed ≤ max pd.consumed pd.sequence.length + old.length

theorem spends_clumpApplyInto (h' : SideHas p c (!reverse) new) (pd : ConsumableSeq T) (offset : Int)
    {reductions : Option (Nat × Nat)} (hw : Within p c reverse old reductions)
    (hs : max pd.consumed pd.sequence.length + old.length < wordSize) (extra : Nat) :
    WM.Spends (pd.rest + (sizeOfItems new + extra)) (clumpApplyInto p c pd offset reductions reverse) (StepLeft pd old extra) := by
  unfold clumpApplyInto
  refine (WM.Spends.liftM _).bind fun _ left hl => ?_
  obtain ⟨-, rfl⟩ := hl
  refine (spends_writeIntoUpto p pd _ _).bind fun pd' left hl => ?_
  obtain ⟨h1, h2, h3⟩ := hl
  obtain ⟨k, rfl⟩ := Nat.exists_eq_add_of_le h1
  rw [show pd'.rest + (sizeOfItems new + extra) + k = sizeOfItems new + (pd'.rest + extra + k) by omega]
  refine (spends_beforeWriteInto h' _ _).bind fun _ left hl => ?_
  refine (WM.Spends.liftM _).bind fun n left' hl' => ?_
  obtain ⟨hn, rfl⟩ := hl'
  have hn := hw n hn
  refine (WM.Spends.liftM _).mono fun pd'' left'' hl'' => ?_
  obtain ⟨hp, rfl⟩ := hl''
  unfold ConsumableSeq.advanceConsumedBy at hp
  rw [uadd_ok (by omega)] at hp
  obtain rfl := Outcome.ok_inj hp
  refine ⟨?_, h2, by simp only; omega⟩
  have : sizeOfItems (pd'.sequence.drop (pd'.consumed + n)) ≤ pd'.rest := sizeOfItems_drop_mono _ (by omega)
  show sizeOfItems (pd'.sequence.drop (pd'.consumed + n)) + extra ≤ _
  omega

theorem spends_alreadyAppliedInto (pd : ConsumableSeq T) (offset : Int) (reductions : Option (Nat × Nat)) (old : List T) (extra : Nat) :
    WM.Spends (pd.rest + extra) (alreadyAppliedInto p c pd offset reductions reverse) (StepLeft pd old extra) := by
  unfold alreadyAppliedInto
  refine (WM.Spends.liftM _).bind fun _ left hl => ?_
  obtain ⟨-, rfl⟩ := hl
  refine (WM.Spends.liftM _).bind fun _ left hl => ?_
  obtain ⟨-, rfl⟩ := hl
  refine (WM.Spends.liftM _).bind fun _ left hl => ?_
  obtain ⟨-, rfl⟩ := hl
  exact (spends_writeIntoUpto p pd _ _).mono fun pd' left hl => ⟨hl.1, hl.2.1, by omega⟩

/-- After a step, with the statistics: the price of a failure is left if the clump did not fail. -/
def StepPaid (pd : ConsumableSeq T) (old : List T) (failed extra : Nat) (r : ConsumableSeq T × Int × Statistics) (left : Nat) : Prop :=
  failed ≤ r.2.2.failed ∧ StepLeft pd old (extra + if r.2.2.failed = failed then 24 + sizeOfItems old else 0) r.1 left

theorem spends_applyStep (h : SideHas p c reverse old) (h' : SideHas p c (!reverse) new)
    (hc : (contextLengths c).2 + old.length < wordSize) (patchable : List T) (next : Option C) (pd : ConsumableSeq T) (offset : Int)
    (st : Statistics) (hs : max pd.consumed pd.sequence.length + old.length < wordSize) (extra : Nat) :
    WM.Spends (pd.rest + (24 + sizeOfItems old + sizeOfItems new + extra)) (applyStep p patchable reverse c next pd offset st)
      (StepPaid pd old st.failed extra) := by
  have leaf : ∀ {m : WM (ConsumableSeq T)} (o : Int) (s : Statistics), s.failed = st.failed →
      WM.Spends (pd.rest + (24 + sizeOfItems old + sizeOfItems new + extra)) m (StepLeft pd old (extra + (24 + sizeOfItems old))) →
      WM.Spends (pd.rest + (24 + sizeOfItems old + sizeOfItems new + extra))
        (m >>= fun pd' => (Pure.pure (pd', o, s) : WM (ConsumableSeq T × Int × Statistics))) (StepPaid pd old st.failed extra) := by
    intro m o s hs hm
    refine hm.bind fun pd' left hl => ?_
    refine (WM.Spends.pure _).mono fun r left' hr => ?_
    obtain ⟨rfl, rfl⟩ := hr
    refine ⟨by simp [hs], ?_⟩
    simp only [hs, if_true]
    exact hl
  have pass : ∀ {γ : Type} (o : Outcome γ) (f : γ → WM (ConsumableSeq T × Int × Statistics)),
      (∀ a, o = .ok a → WM.Spends (pd.rest + (24 + sizeOfItems old + sizeOfItems new + extra)) (f a) (StepPaid pd old st.failed extra)) →
      WM.Spends (pd.rest + (24 + sizeOfItems old + sizeOfItems new + extra)) ((liftM o : WM γ) >>= f)
        (StepPaid pd old st.failed extra) := by
    intro γ o f hf
    refine (WM.Spends.liftM _).bind fun a left hl => ?_
    obtain ⟨ho, rfl⟩ := hl
    exact hf a ho
  have apply : ∀ o reductions, Within p c reverse old reductions →
      WM.Spends (pd.rest + (24 + sizeOfItems old + sizeOfItems new + extra)) (clumpApplyInto p c pd o reductions reverse)
        (StepLeft pd old (extra + (24 + sizeOfItems old))) := by
    intro o reductions hw
    have := spends_clumpApplyInto h' pd o hw hs (extra + (24 + sizeOfItems old))
    rwa [show pd.rest + (sizeOfItems new + (extra + (24 + sizeOfItems old)))
      = pd.rest + (24 + sizeOfItems old + sizeOfItems new + extra) by omega] at this
  have already : ∀ o reductions,
      WM.Spends (pd.rest + (24 + sizeOfItems old + sizeOfItems new + extra)) (alreadyAppliedInto p c pd o reductions reverse)
        (StepLeft pd old (extra + (24 + sizeOfItems old))) := by
    intro o reductions
    exact (spends_alreadyAppliedInto pd o reductions old _).mono fun pd' left hl => ⟨by have := hl.1; omega, hl.2⟩
  unfold applyStep
  refine pass _ _ fun a ha => ?_
  match a with
  | some .cleanly => exact leaf _ _ rfl (apply _ _ (within_willApply h hc ha))
  | some (.withReductions r) => exact leaf _ _ rfl (apply _ _ (within_willApply h hc ha))
  | none =>
    refine pass _ _ fun a ha => ?_
    match a with
    | some (adj, w) =>
      refine pass _ _ fun o _ => ?_
      cases w with
      | cleanly => exact leaf _ _ rfl (apply _ _ (within_willApplyNearby h hc ha))
      | withReductions r => exact leaf _ _ rfl (apply _ _ (within_willApplyNearby h hc ha))
    | none =>
      refine pass _ _ fun a _ => ?_
      match a with
      | some .cleanly => exact leaf _ _ rfl (already _ _)
      | some (.withReductions r) => exact leaf _ _ rfl (already _ _)
      | none =>
        refine pass _ _ fun a _ => ?_
        match a with
        | some (adj, w) =>
          refine pass _ _ fun o _ => ?_
          cases w with
          | cleanly => exact leaf _ _ rfl (already _ _)
          | withReductions r => exact leaf _ _ rfl (already _ _)
        | none =>
          have := spends_failure h h' (pd.rest + extra)
          rw [show 24 + sizeOfItems old + sizeOfItems new + (pd.rest + extra)
            = pd.rest + (24 + sizeOfItems old + sizeOfItems new + extra) by omega] at this
          refine this.bind fun _ left hl => ?_
          refine (WM.Spends.pure _).mono fun r left' hr => ?_
          obtain ⟨rfl, rfl⟩ := hr
          exact ⟨by simp, by simp; omega, rfl, by simp only; omega⟩

/-- The sum of a quantity over a list. -/
def total (f : α → Nat) : List α → Nat
  | [] => 0
  | x :: xs => f x + total f xs

theorem spends_applyLoop (old new : C → List T) (patchable : List T) (cs : List C) (h : ∀ c ∈ cs, SideHas p c reverse (old c))
    (h' : ∀ c ∈ cs, SideHas p c (!reverse) (new c)) (hc : ∀ c ∈ cs, (contextLengths c).2 + (old c).length < wordSize)
    (pd : ConsumableSeq T) (offset : Int) (st : Statistics)
    (hs : max pd.consumed pd.sequence.length + total (fun c => (old c).length) cs < wordSize) :
    WM.Spends (pd.rest + total (fun c => 24 + sizeOfItems (old c) + sizeOfItems (new c)) cs)
      (applyLoop p patchable reverse cs pd offset st)
      fun r left => st.failed ≤ r.2.failed ∧ r.1.rest ≤ left ∧
        (r.2.failed = st.failed → r.1.rest + total (fun c => 24 + sizeOfItems (old c)) cs ≤ left) := by
  induction cs generalizing pd offset st with
  | nil =>
    refine (WM.Spends.pure _).mono fun r left hr => ?_
    obtain ⟨rfl, rfl⟩ := hr
    exact ⟨Nat.le_refl _, by simp [total], fun _ => by simp [total]⟩
  | cons c cs ih =>
    simp only [total] at hs ⊢
    unfold applyLoop
    refine (spends_applyStep (h c (by simp)) (h' c (by simp)) (hc c (by simp)) patchable cs.head? pd offset st (by omega)
      (total (fun c => 24 + sizeOfItems (old c) + sizeOfItems (new c)) cs)).bind fun r left hr => ?_
    obtain ⟨pd', o, st'⟩ := r
    obtain ⟨e1, e2, e3, e4⟩ := hr
    simp only at e1 e2 e3 e4
    have := ih (fun c hc => h c (by simp [hc])) (fun c hc => h' c (by simp [hc])) (fun d hd => hc d (by simp [hd])) pd' o st'
      (by rw [e3]; omega)
    obtain ⟨k, rfl⟩ := Nat.exists_eq_add_of_le e2
    have := this.more ((if st'.failed = st.failed then 24 + sizeOfItems (old c) else 0) + k)
    rw [show pd'.rest + total (fun c => 24 + sizeOfItems (old c) + sizeOfItems (new c)) cs +
        ((if st'.failed = st.failed then 24 + sizeOfItems (old c) else 0) + k)
      = pd'.rest + (total (fun c => 24 + sizeOfItems (old c) + sizeOfItems (new c)) cs +
        if st'.failed = st.failed then 24 + sizeOfItems (old c) else 0) + k by omega] at this
    refine this.mono fun r left hr => ?_
    obtain ⟨left, ⟨f1, f2, f3⟩, rfl⟩ := hr
    refine ⟨by omega, by omega, fun hf => ?_⟩
    have f3 := f3 (by omega)
    rw [if_pos (by omega)]
    omega

/-- A text patch, of whatever form, writes no more than the file, and for every clump its two sides and 24 bytes of markers; if no
clump fails, no more than the file and the new sides. -/
theorem spends_applyInto (old new : C → List T) (l : List T) (cs : List C) (h : ∀ c ∈ cs, SideHas p c reverse (old c))
    (h' : ∀ c ∈ cs, SideHas p c (!reverse) (new c)) (hc : ∀ c ∈ cs, (contextLengths c).2 + (old c).length < wordSize)
    (hs : l.length + total (fun c => (old c).length) cs < wordSize) :
    WM.Spends (sizeOfItems l + total (fun c => 24 + sizeOfItems (old c) + sizeOfItems (new c)) cs) (applyInto p cs l reverse)
      fun st left => st.failed = 0 → total (fun c => 24 + sizeOfItems (old c)) cs ≤ left := by
  unfold applyInto
  have := spends_applyLoop old new l cs h h' hc (ConsumableSeq.new l) 0 {} (by simp [ConsumableSeq.new]; omega)
  refine WM.Spends.bind this fun r left hr => ?_
  obtain ⟨pd, st⟩ := r
  obtain ⟨e1, e2, e3⟩ := hr
  simp only at e2 e3
  obtain ⟨k, rfl⟩ := Nat.exists_eq_add_of_le e2
  refine (spends_writeRemainder p pd k).bind fun _ left hl => ?_
  refine (WM.Spends.pure _).mono fun r left' hr => ?_
  obtain ⟨rfl, rfl⟩ := hr
  intro hf
  have := e3 hf
  omega

end clump

/-! ## Byte patches -/

theorem spends_byteApplyStep (p : Profile) (l : List UInt8) (reverse : Bool) (c : DiffClump UInt8) (pd : ConsumableSeq UInt8)
    (hs : max pd.consumed pd.sequence.length + (c.beforeSide reverse).items.length < wordSize) (extra : Nat) :
    WM.Spends (pd.rest + ((c.afterSide reverse).items.length + extra)) (byteApplyStep p l reverse c pd)
      (StepLeft pd (c.beforeSide reverse).items extra) := by
  unfold byteApplyStep
  refine (WM.Spends.liftM _).bind fun a left hl => ?_
  obtain ⟨-, rfl⟩ := hl
  cases a with
  | true =>
    simp only [if_true]
    unfold byteClumpApplyInto
    refine (spends_writeIntoUpto p pd _ _).bind fun pd' left hl => ?_
    obtain ⟨h1, h2, h3⟩ := hl
    obtain ⟨k, rfl⟩ := Nat.exists_eq_add_of_le h1
    have hsz : sizeOfItems (c.afterSide reverse).items = (c.afterSide reverse).items.length := by
      unfold sizeOfItems; rw [bytesOf_uint8]
    refine (spends_writeItems (by omega)).bind fun _ left hl => ?_
    refine (WM.Spends.liftM _).mono fun pd'' left' hl' => ?_
    obtain ⟨hp, rfl⟩ := hl'
    unfold ConsumableSeq.advanceConsumedBy at hp
    rw [uadd_ok (by simp only [Snippet.len]; omega)] at hp
    obtain rfl := Outcome.ok_inj hp
    refine ⟨?_, h2, by simp only [Snippet.len]; omega⟩
    have : sizeOfItems (pd'.sequence.drop (pd'.consumed + (c.beforeSide reverse).len)) ≤ pd'.rest := sizeOfItems_drop_mono _ (by omega)
    show sizeOfItems (pd'.sequence.drop (pd'.consumed + (c.beforeSide reverse).len)) + extra ≤ _
    omega
  | false =>
    simp only [Bool.false_eq_true, if_false]
    refine (WM.Spends.liftM _).bind fun a left hl => ?_
    obtain ⟨-, rfl⟩ := hl
    cases a with
    | true =>
      simp only [if_true]
      unfold byteAlreadyAppliedInto
      refine (WM.Spends.liftM _).bind fun _ left hl => ?_
      obtain ⟨-, rfl⟩ := hl
      exact (spends_writeIntoUpto p pd _ _).mono fun pd' left hl => ⟨by omega, hl.2.1, by omega⟩
    | false =>
      simp only [Bool.false_eq_true, if_false]
      refine (WM.Spends.pure _).mono fun r left' hr => ?_
      obtain ⟨rfl, rfl⟩ := hr
      exact ⟨by omega, rfl, by omega⟩

theorem spends_byteApplyLoop (p : Profile) (l : List UInt8) (reverse : Bool) (cs : List (DiffClump UInt8)) (pd : ConsumableSeq UInt8)
    (hs : max pd.consumed pd.sequence.length + total (fun c => (c.beforeSide reverse).items.length) cs < wordSize) :
    WM.Spends (pd.rest + total (fun c => (c.afterSide reverse).items.length) cs) (byteApplyLoop p l reverse cs pd)
      fun pd' left => pd'.rest ≤ left := by
  induction cs generalizing pd with
  | nil =>
    refine (WM.Spends.pure _).mono fun r left hr => ?_
    obtain ⟨rfl, rfl⟩ := hr
    simp [total]
  | cons c cs ih =>
    simp only [total] at hs ⊢
    unfold byteApplyLoop
    refine (spends_byteApplyStep p l reverse c pd (by omega) (total (fun c => (c.afterSide reverse).items.length) cs)).bind
      fun pd' left hr => ?_
    obtain ⟨e1, e2, e3⟩ := hr
    obtain ⟨k, rfl⟩ := Nat.exists_eq_add_of_le e1
    refine ((ih pd' (by rw [e2]; omega)).more k).mono fun r left hr => ?_
    obtain ⟨left, h, rfl⟩ := hr
    omega

/-- A byte patch, of whatever form, writes no more than the file and the new sides of its clumps. -/
theorem spends_byteApplyInto (p : Profile) (l : List UInt8) (reverse : Bool) (cs : List (DiffClump UInt8))
    (hs : l.length + total (fun c => (c.beforeSide reverse).items.length) cs < wordSize) :
    WM.Spends (l.length + total (fun c => (c.afterSide reverse).items.length) cs) (byteApplyInto p cs l reverse)
      fun _ _ => True := by
  unfold byteApplyInto
  have := spends_byteApplyLoop p l reverse cs (ConsumableSeq.new l) (by simp [ConsumableSeq.new]; omega)
  have hsz : (ConsumableSeq.new l).rest = l.length := by
    simp [ConsumableSeq.rest, ConsumableSeq.new, sizeOfItems, bytesOf_uint8]
  rw [hsz] at this
  refine WM.Spends.bind this fun pd left hr => ?_
  obtain ⟨k, rfl⟩ := Nat.exists_eq_add_of_le hr
  refine (spends_writeRemainder p pd k).bind fun _ left hl => ?_
  exact (WM.Spends.pure _).mono fun _ _ _ => trivial

end PwDiff
