import Verif.Proofs.Writer
import Verif.Proofs.ApplyBytes

/-! # What applying a patch, of whatever form, can write at all -/

namespace PwDiff

open ChangeBasics TextClump

variable {α β T : Type}

/-- On a writer that does not fail the computation writes something that satisfies `Q`; its result and what is written
satisfy `R`. -/
structure WM.Writes (Q : List UInt8 → Prop) (m : WM α) (R : α → List UInt8 → Prop) : Prop where
  at_ : ∀ out, ∃ bs, (m ⟨out, none⟩).2 = ⟨out ++ bs, none⟩ ∧ Q bs ∧ ∀ a, (m ⟨out, none⟩).1 = .ok a → R a bs

/-- A condition on what is written that can be checked piece by piece. -/
structure Piecewise (Q : List UInt8 → Prop) : Prop where
  nil : Q []
  append : ∀ bs bs', Q bs → Q bs' → Q (bs ++ bs')

theorem WM.Writes.lift {Q : List UInt8 → Prop} (h : Q []) (o : Outcome α) : WM.Writes Q (WM.lift o) fun a bs => o = .ok a ∧ bs = [] :=
  ⟨fun out => ⟨[], by simp [WM.lift], h, fun _ h => ⟨h, rfl⟩⟩⟩

theorem WM.Writes.liftM {Q : List UInt8 → Prop} (h : Q []) (o : Outcome α) :
    WM.Writes Q (liftM o : WM α) fun a bs => o = .ok a ∧ bs = [] := WM.Writes.lift h o

theorem WM.Writes.pure {Q : List UInt8 → Prop} (h : Q []) (a : α) : WM.Writes Q (Pure.pure a : WM α) fun b bs => b = a ∧ bs = [] :=
  ⟨fun out => ⟨[], by simp [Pure.pure], h, fun b h => ⟨(Outcome.ok_inj h).symm, rfl⟩⟩⟩

theorem WM.Writes.writeAll {Q : List UInt8 → Prop} {bs : List UInt8} (h : Q bs) :
    WM.Writes Q (PwDiff.writeAll bs) fun _ bs' => bs' = bs :=
  ⟨fun _ => ⟨bs, rfl, h, fun _ _ => rfl⟩⟩

theorem WM.Writes.mono {Q : List UInt8 → Prop} {m : WM α} {R S : α → List UInt8 → Prop} (h : WM.Writes Q m R)
    (hS : ∀ a bs, Q bs → R a bs → S a bs) : WM.Writes Q m S :=
  ⟨fun out => let ⟨bs, h1, h2, h3⟩ := h.at_ out; ⟨bs, h1, h2, fun a ha => hS a bs h2 (h3 a ha)⟩⟩

theorem WM.Writes.weaken {Q Q' : List UInt8 → Prop} {m : WM α} {R : α → List UInt8 → Prop} (h : WM.Writes Q m R)
    (hQ : ∀ bs, Q bs → Q' bs) : WM.Writes Q' m fun a bs => Q bs ∧ R a bs :=
  ⟨fun out => let ⟨bs, h1, h2, h3⟩ := h.at_ out; ⟨bs, h1, hQ bs h2, fun a ha => ⟨h2, h3 a ha⟩⟩⟩

theorem WM.Writes.bind {Q : List UInt8 → Prop} (hQ : Piecewise Q) {m : WM α} {f : α → WM β} {R : α → List UInt8 → Prop}
    {S : β → List UInt8 → Prop} (hm : WM.Writes Q m R)
    (hf : ∀ a bs, Q bs → R a bs → WM.Writes Q (f a) fun b bs' => S b (bs ++ bs')) : WM.Writes Q (m >>= f) S := by
  constructor
  intro out
  obtain ⟨bs, h1, h2, h3⟩ := hm.at_ out
  change ∃ bs, (WM.bind m f _).2 = _ ∧ Q bs ∧ ∀ a, (WM.bind m f _).1 = _ → _
  unfold WM.bind
  generalize m ⟨out, none⟩ = x at h1 h3
  obtain ⟨o, w⟩ := x
  simp only at h1 h3
  subst h1
  cases o with
  | ok a =>
    obtain ⟨bs', e1, e2, e3⟩ := (hf a bs h2 (h3 a rfl)).at_ (out ++ bs)
    exact ⟨bs ++ bs', by rw [← List.append_assoc]; exact e1, hQ.append _ _ h2 e2, e3⟩
  | ioErr => exact ⟨bs, rfl, h2, nofun⟩
  | panic => exact ⟨bs, rfl, h2, nofun⟩
  | diverge => exact ⟨bs, rfl, h2, nofun⟩

/-! ## Pieces -/

/-- `bs` consists of items that satisfy `P`, and of the three markers if `marked`. -/
def Written [Item T] (marked : Prop) (P : T → Prop) (bs : List UInt8) : Prop :=
  ∃ pieces : List (List UInt8), bs = pieces.flatten ∧ ∀ b ∈ pieces,
    (∃ x, P x ∧ b = Item.bytes x) ∨ marked ∧ (b = markerBefore ∨ b = markerMiddle ∨ b = markerAfter)

variable [Item T] {P : T → Prop} {marked : Prop}

theorem Written.piecewise : Piecewise (Written marked P) :=
  ⟨⟨[], rfl, nofun⟩, fun _ _ ⟨a, h1, h2⟩ ⟨b, h3, h4⟩ => ⟨a ++ b, by rw [h1, h3, List.flatten_append], fun x hx => by
    rcases List.mem_append.1 hx with h | h
    · exact h2 x h
    · exact h4 x h⟩⟩

theorem Written.nil : Written marked P [] := Written.piecewise.nil

theorem Written.items {l : List T} (h : ∀ x ∈ l, P x) : Written marked P (bytesOf l) := by
  refine ⟨l.map Item.bytes, ?_, ?_⟩
  · rw [bytesOf, List.flatMap_def]
  · intro b hb
    obtain ⟨x, hx, rfl⟩ := List.mem_map.1 hb
    exact .inl ⟨x, h x hx, rfl⟩

theorem Written.mono {P' : T → Prop} {marked' : Prop} {bs : List UInt8} (h : Written marked P bs) (hP : ∀ x, P x → P' x)
    (hm : marked → marked') : Written marked' P' bs := by
  obtain ⟨pieces, h1, h2⟩ := h
  refine ⟨pieces, h1, fun b hb => ?_⟩
  rcases h2 b hb with ⟨x, hx, e⟩ | ⟨h, e⟩
  · exact .inl ⟨x, hP x hx, e⟩
  · exact .inr ⟨hm h, e⟩

theorem writes_writeLines {l : List T} (h : ∀ x ∈ l, P x) : WM.Writes (Written marked P) (writeLines l) fun _ _ => True := by
  induction l with
  | nil => exact (WM.Writes.pure Written.nil ()).mono fun _ _ _ _ => trivial
  | cons x l ih =>
    unfold writeLines
    refine WM.Writes.bind Written.piecewise (WM.Writes.writeAll ?_) fun _ _ _ _ => ih fun y hy => h y (by simp [hy])
    have := Written.items (marked := marked) (l := [x]) (P := P) fun y hy => h y (by simpa using Or.inl (List.mem_singleton.1 hy))
    simpa [bytesOf] using this

section

variable [DecidableEq T] [LawfulItem T]

theorem writes_writeItems {l : List T} (h : ∀ x ∈ l, P x) :
    WM.Writes (Written marked P) (Item.writeItems l) fun _ _ => True := by
  rw [LawfulItem.writeItems_eq]
  exact (WM.Writes.writeAll (Written.items h)).mono fun _ _ _ _ => trivial

theorem writes_writeInto (p : Profile) {l : List T} (h : ∀ x ∈ l, P x) (r : Range) :
    WM.Writes (Written marked P) (writeInto p l r) fun _ _ => True := by
  unfold writeInto
  refine WM.Writes.bind Written.piecewise (WM.Writes.liftM Written.nil _) fun _ _ _ _ =>
    WM.Writes.bind Written.piecewise (WM.Writes.liftM Written.nil _) fun items _ _ hi => writes_writeItems ?_
  intro x hx
  have := hi.1
  unfold slice at this
  split at this
  · obtain rfl := Outcome.ok_inj this
    exact h x (List.mem_of_mem_drop (List.mem_of_mem_take hx))
  · cases this

theorem writes_writeIntoUpto (p : Profile) {pd : ConsumableSeq T} (h : ∀ x ∈ pd.sequence, P x) (upto : Nat) :
    WM.Writes (Written marked P) (pd.writeIntoUpto p upto) fun pd' _ => pd'.sequence = pd.sequence := by
  unfold ConsumableSeq.writeIntoUpto
  refine WM.Writes.bind Written.piecewise (WM.Writes.liftM Written.nil _) fun _ _ _ _ => ?_
  split
  · refine WM.Writes.bind Written.piecewise (writes_writeInto p h _) fun _ _ _ _ => ?_
    exact (WM.Writes.pure Written.nil _).mono fun _ _ _ h => by rw [h.1]
  · exact (WM.Writes.pure Written.nil _).mono fun _ _ _ h => by rw [h.1]

theorem writes_writeRemainder (p : Profile) {pd : ConsumableSeq T} (h : ∀ x ∈ pd.sequence, P x) :
    WM.Writes (Written marked P) (pd.writeRemainder p) fun _ _ => True := by
  unfold ConsumableSeq.writeRemainder
  exact WM.Writes.bind Written.piecewise (writes_writeInto p h _) fun _ _ _ _ =>
    (WM.Writes.pure Written.nil _).mono fun _ _ _ _ => trivial

end

/-! ## Text patches -/

section clump

variable {C : Type} [TextClump C T]

/-- The lines of a clump, in either direction, satisfy `P`. -/
def LinesOf (p : Profile) (P : T → Prop) (c : C) (reverse : Bool) : Prop :=
  ∀ range ls, beforeLines p c range reverse = .ok ls → ∀ x ∈ ls, P x

theorem writes_beforeWriteInto (p : Profile) {c : C} {reverse : Bool} (h : LinesOf p P c reverse) (reductions : Option (Nat × Nat)) :
    WM.Writes (Written marked P) (beforeWriteInto p c reductions reverse) fun _ _ => True := by
  unfold beforeWriteInto
  cases reductions with
  | none =>
    exact WM.Writes.bind Written.piecewise (WM.Writes.liftM Written.nil _) fun _ _ _ hl => writes_writeLines (h _ _ hl.1)
  | some r =>
    exact WM.Writes.bind Written.piecewise (WM.Writes.liftM Written.nil _) fun _ _ _ _ =>
      WM.Writes.bind Written.piecewise (WM.Writes.liftM Written.nil _) fun _ _ _ hl => writes_writeLines (h _ _ hl.1)

theorem writes_failure (p : Profile) {c : C} {reverse : Bool} (h : LinesOf p P c reverse) (h' : LinesOf p P c (!reverse)) :
    WM.Writes (Written True P) (writeFailureDataInto p c reverse) fun _ _ => True := by
  unfold writeFailureDataInto
  have mark : ∀ b, (b = markerBefore ∨ b = markerMiddle ∨ b = markerAfter) → Written True P b := fun b hb =>
    ⟨[b], by simp, fun x hx => by rw [List.mem_singleton.1 hx]; exact .inr ⟨trivial, hb⟩⟩
  refine WM.Writes.bind Written.piecewise (WM.Writes.writeAll (mark _ (.inl rfl))) fun _ _ _ _ => ?_
  refine WM.Writes.bind Written.piecewise (writes_beforeWriteInto p h _) fun _ _ _ _ => ?_
  refine WM.Writes.bind Written.piecewise (WM.Writes.writeAll (mark _ (.inr (.inl rfl)))) fun _ _ _ _ => ?_
  refine WM.Writes.bind Written.piecewise (writes_beforeWriteInto p h' _) fun _ _ _ _ => ?_
  exact (WM.Writes.writeAll (mark _ (.inr (.inr rfl)))).mono fun _ _ _ _ => trivial

variable [DecidableEq T] [LawfulItem T]

theorem writes_clumpApplyInto (p : Profile) {c : C} {pd : ConsumableSeq T} (hl : ∀ x ∈ pd.sequence, P x) (offset : Int)
    (reductions : Option (Nat × Nat)) {reverse : Bool} (h' : LinesOf p P c (!reverse)) :
    WM.Writes (Written marked P) (clumpApplyInto p c pd offset reductions reverse) fun pd' _ => pd'.sequence = pd.sequence := by
  unfold clumpApplyInto
  refine WM.Writes.bind Written.piecewise (WM.Writes.liftM Written.nil _) fun _ _ _ _ => ?_
  refine WM.Writes.bind Written.piecewise (writes_writeIntoUpto p hl _) fun pd' _ _ he => ?_
  refine WM.Writes.bind Written.piecewise (writes_beforeWriteInto p h' _) fun _ _ _ _ => ?_
  refine WM.Writes.bind Written.piecewise (WM.Writes.liftM Written.nil _) fun _ _ _ _ => ?_
  refine WM.Writes.mono (WM.Writes.liftM Written.nil _) fun pd'' _ _ h => ?_
  have h := h.1
  unfold ConsumableSeq.advanceConsumedBy at h
  generalize uadd p pd'.consumed _ = o at h
  cases o with
  | ok n => rw [← Outcome.ok_inj h]; exact he
  | _ => cases h

theorem writes_alreadyAppliedInto (p : Profile) {c : C} {pd : ConsumableSeq T} (hl : ∀ x ∈ pd.sequence, P x) (offset : Int)
    (reductions : Option (Nat × Nat)) (reverse : Bool) :
    WM.Writes (Written marked P) (alreadyAppliedInto p c pd offset reductions reverse) fun pd' _ => pd'.sequence = pd.sequence := by
  unfold alreadyAppliedInto
  refine WM.Writes.bind Written.piecewise (WM.Writes.liftM Written.nil _) fun _ _ _ _ => ?_
  refine WM.Writes.bind Written.piecewise (WM.Writes.liftM Written.nil _) fun _ _ _ _ => ?_
  refine WM.Writes.bind Written.piecewise (WM.Writes.liftM Written.nil _) fun _ _ _ _ => ?_
  exact writes_writeIntoUpto p hl _

/-- After a step: the file is the same, and markers were written only if the clump failed. -/
def StepPost (P : T → Prop) (l : List T) (failed : Nat) (pd : ConsumableSeq T) (st : Statistics) (bs : List UInt8) : Prop :=
  pd.sequence = l ∧ failed ≤ st.failed ∧ Written (failed < st.failed) P bs

theorem writes_applyStep (p : Profile) (patchable : List T) {reverse : Bool} {c : C} (next : Option C)
    {pd : ConsumableSeq T} (hl : ∀ x ∈ pd.sequence, P x) (offset : Int) (st : Statistics) (h : LinesOf p P c reverse)
    (h' : LinesOf p P c (!reverse)) :
    WM.Writes (Written True P) (applyStep p patchable reverse c next pd offset st)
      fun r bs => StepPost P pd.sequence st.failed r.1 r.2.2 bs := by
  have leaf : ∀ {m : WM (ConsumableSeq T)} (o : Int) (s : Statistics), s.failed = st.failed →
      WM.Writes (Written False P) m (fun pd' _ => pd'.sequence = pd.sequence) →
      WM.Writes (Written True P) (m >>= fun pd' => (Pure.pure (pd', o, s) : WM (ConsumableSeq T × Int × Statistics)))
        fun r bs => StepPost P pd.sequence st.failed r.1 r.2.2 bs := by
    intro m o s hs hm
    refine WM.Writes.bind Written.piecewise (WM.Writes.weaken hm fun bs hb => hb.mono (fun _ h => h) fun h => h.elim)
      fun pd' bs _ hb => ?_
    refine (WM.Writes.pure Written.nil _).mono fun r bs' _ hr => ?_
    obtain ⟨rfl, rfl⟩ := hr
    refine ⟨hb.2, by simp [hs], ?_⟩
    rw [List.append_nil]
    exact hb.1.mono (fun _ h => h) fun h => h.elim
  have pass : ∀ {γ : Type} (o : Outcome γ) (f : γ → WM (ConsumableSeq T × Int × Statistics)),
      (∀ a, WM.Writes (Written True P) (f a) fun r bs => StepPost P pd.sequence st.failed r.1 r.2.2 bs) →
      WM.Writes (Written True P) ((liftM o : WM γ) >>= f) fun r bs => StepPost P pd.sequence st.failed r.1 r.2.2 bs := by
    intro γ o f hf
    refine WM.Writes.bind Written.piecewise (WM.Writes.liftM Written.nil _) fun a bs _ hb => ?_
    obtain ⟨-, rfl⟩ := hb
    exact hf a
  unfold applyStep
  refine pass _ _ fun a => ?_
  match a with
  | some .cleanly => exact leaf _ _ rfl (writes_clumpApplyInto p hl _ _ h')
  | some (.withReductions r) => exact leaf _ _ rfl (writes_clumpApplyInto p hl _ _ h')
  | none =>
    refine pass _ _ fun a => ?_
    match a with
    | some (adj, w) =>
      refine pass _ _ fun o => ?_
      cases w with
      | cleanly => exact leaf _ _ rfl (writes_clumpApplyInto p hl _ _ h')
      | withReductions r => exact leaf _ _ rfl (writes_clumpApplyInto p hl _ _ h')
    | none =>
      refine pass _ _ fun a => ?_
      match a with
      | some .cleanly => exact leaf _ _ rfl (writes_alreadyAppliedInto p hl _ _ _)
      | some (.withReductions r) => exact leaf _ _ rfl (writes_alreadyAppliedInto p hl _ _ _)
      | none =>
        refine pass _ _ fun a => ?_
        match a with
        | some (adj, w) =>
          refine pass _ _ fun o => ?_
          cases w with
          | cleanly => exact leaf _ _ rfl (writes_alreadyAppliedInto p hl _ _ _)
          | withReductions r => exact leaf _ _ rfl (writes_alreadyAppliedInto p hl _ _ _)
        | none =>
          refine WM.Writes.bind Written.piecewise (writes_failure p h h') fun _ bs hb _ => ?_
          refine (WM.Writes.pure Written.nil _).mono fun r bs' _ hr => ?_
          obtain ⟨rfl, rfl⟩ := hr
          refine ⟨rfl, by simp, ?_⟩
          rw [List.append_nil]
          exact hb.mono (fun _ h => h) fun _ => by simp

theorem writes_applyLoop (p : Profile) (patchable : List T) {reverse : Bool} (cs : List C) {pd : ConsumableSeq T}
    (hl : ∀ x ∈ pd.sequence, P x) (offset : Int) (st : Statistics) (h : ∀ c ∈ cs, LinesOf p P c reverse)
    (h' : ∀ c ∈ cs, LinesOf p P c (!reverse)) :
    WM.Writes (Written True P) (applyLoop p patchable reverse cs pd offset st)
      fun r bs => StepPost P pd.sequence st.failed r.1 r.2 bs := by
  induction cs generalizing pd offset st with
  | nil =>
    refine (WM.Writes.pure Written.nil _).mono fun r bs' _ hr => ?_
    obtain ⟨rfl, rfl⟩ := hr
    exact ⟨rfl, Nat.le_refl _, Written.nil⟩
  | cons c cs ih =>
    unfold applyLoop
    refine WM.Writes.bind Written.piecewise
      (writes_applyStep p patchable cs.head? hl offset st (h c (by simp)) (h' c (by simp))) fun r bs _ hr => ?_
    obtain ⟨pd', o, st'⟩ := r
    obtain ⟨e1, e2, e3⟩ := hr
    simp only at e1 e2 e3
    have := ih (pd := pd') (by rw [e1]; exact hl) o st' (fun c hc => h c (by simp [hc])) (fun c hc => h' c (by simp [hc]))
    refine this.mono fun r bs' _ hr => ?_
    obtain ⟨f1, f2, f3⟩ := hr
    exact ⟨f1.trans e1, by omega, Written.piecewise.append _ _ (e3.mono (fun _ h => h) fun h => by omega)
      (f3.mono (fun _ h => h) fun h => by omega)⟩

/-- Whatever the clumps are: a text patch writes only lines of the file and of the clumps, and the markers; and markers only if a
clump failed. -/
theorem writes_applyInto (p : Profile) (l : List T) {reverse : Bool} (cs : List C)
    (hl : ∀ x ∈ l, P x) (h : ∀ c ∈ cs, LinesOf p P c reverse) (h' : ∀ c ∈ cs, LinesOf p P c (!reverse)) :
    WM.Writes (Written True P) (applyInto p cs l reverse) fun st bs => Written (0 < st.failed) P bs := by
  unfold applyInto
  refine WM.Writes.bind Written.piecewise (writes_applyLoop p l cs (pd := ConsumableSeq.new l) hl 0 {} h h') fun r bs _ hr => ?_
  obtain ⟨pd, st⟩ := r
  obtain ⟨e1, e2, e3⟩ := hr
  simp only at e1 e3
  have : WM.Writes (Written False P) (pd.writeRemainder p) fun _ _ => True :=
    writes_writeRemainder p (by rw [e1]; exact hl)
  refine WM.Writes.bind Written.piecewise (WM.Writes.weaken this fun bs hb => hb.mono (fun _ h => h) fun h => h.elim)
      fun _ bs' _ hb => ?_
  refine (WM.Writes.pure Written.nil _).mono fun r bs'' _ hr => ?_
  obtain ⟨rfl, rfl⟩ := hr
  rw [List.append_nil]
  exact Written.piecewise.append _ _ e3 (hb.1.mono (fun _ h => h) fun h => h.elim)

end clump

end PwDiff
