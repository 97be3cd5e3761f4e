import Verif.Proofs.Logging
import Verif.Proofs.Refine
import Verif.Proofs.Writer
import Verif.Proofs.Swap

/-! # Logging: what the messages about clumps say -/

namespace PwDiff

/-! ## Reading the log -/

/-- The number of the clump a message is about. -/
def Message.clump : Message → Option Nat
  | .applies n => some n
  | .appliesReduced n _ => some n
  | .appliesOffset n _ => some n
  | .appliesReducedOffset n _ _ => some n
  | .already n => some n
  | .alreadyReduced n _ => some n
  | .alreadyOffset n _ => some n
  | .alreadyReducedOffset n _ _ => some n
  | .notApplied n => some n
  | .notAlready n => some n
  | _ => none

/-- How a message says the clump was dealt with. -/
inductive Kind where
  | clean
  | fuzzy
  | already
  | alreadyFuzzy
  | failed
deriving DecidableEq, Repr

def Message.kind : Message → Option Kind
  | .applies _ => some .clean
  | .appliesReduced _ _ => some .fuzzy
  | .appliesOffset _ _ => some .fuzzy
  | .appliesReducedOffset _ _ _ => some .fuzzy
  | .already _ => some .already
  | .alreadyReduced _ _ => some .alreadyFuzzy
  | .alreadyOffset _ _ => some .alreadyFuzzy
  | .alreadyReducedOffset _ _ _ => some .alreadyFuzzy
  | .notApplied _ => some .failed
  | _ => none

/-- Only a clump that fits exactly is not worth a warning, and only one that does not fit is an error. -/
def Kind.level : Kind → Level
  | .clean => .info
  | .failed => .error
  | _ => .warn

/-- The number of messages of a kind. -/
def countKind (log : List Record) (k : Kind) : Nat := (log.filter fun r => r.message.kind = some k).length

/-- How far a message says the clump was displaced from where it was expected. -/
def Message.displacement : Message → Int
  | .appliesOffset _ d => d
  | .appliesReducedOffset _ _ d => d
  | .alreadyOffset _ d => d
  | .alreadyReducedOffset _ _ d => d
  | _ => 0

/-- The records are about the clumps `n + 1`, `n + 2` and so on. -/
def NumberedFrom (n : Nat) (log : List Record) : Prop :=
  ∀ i (h : i < log.length), (log[i]'h).message.clump = some (n + i + 1)

/-- The record is one of the library about a clump, at the level that belongs to its kind. -/
def Proper (r : Record) : Prop := r.crate = .pwDiffLib ∧ ∃ k, r.message.kind = some k ∧ r.level = k.level

/-- What a message says about the file `l` and the clump `c`, which is expected at the place displaced by `offset`. -/
def TrueOf {T : Type} (l : List T) (offset : Int) (c : DiffClump T) : Message → Prop
  | .applies _ => StandsAt c.before.items l (c.before.start + offset)
  | .appliesReduced _ r => ¬ StandsAt c.before.items l (c.before.start + offset) ∧
      StandsAt (trim r c.before.items) l (c.before.start + offset + r.1)
  | .appliesOffset _ d => d ≠ 0 ∧ Fits c.before.items c.contextLengths l (c.before.start + offset) none ∧
      StandsAt c.before.items l (c.before.start + offset + d)
  | .appliesReducedOffset _ r d => d ≠ 0 ∧ Fits c.before.items c.contextLengths l (c.before.start + offset) none ∧
      StandsAt (trim r c.before.items) l (c.before.start + offset + d + r.1)
  | .already _ => Fits c.before.items c.contextLengths l (c.before.start + offset) none ∧
      StandsAt c.after.items l (c.after.start + offset)
  | .alreadyReduced _ r => Fits c.before.items c.contextLengths l (c.before.start + offset) none ∧
      ¬ StandsAt c.after.items l (c.after.start + offset) ∧ StandsAt (trim r c.after.items) l (c.after.start + offset + r.1)
  | .alreadyOffset _ d => d ≠ 0 ∧ Fits c.before.items c.contextLengths l (c.before.start + offset) none ∧
      Fits c.after.items c.contextLengths l (c.after.start + offset) none ∧
      StandsAt c.after.items l (c.after.start + offset + d)
  | .alreadyReducedOffset _ r d => d ≠ 0 ∧ Fits c.before.items c.contextLengths l (c.before.start + offset) none ∧
      Fits c.after.items c.contextLengths l (c.after.start + offset) none ∧
      StandsAt (trim r c.after.items) l (c.after.start + offset + d + r.1)
  | .notApplied _ => Fits c.before.items c.contextLengths l (c.before.start + offset) none ∧
      Fits c.after.items c.contextLengths l (c.after.start + offset) none
  | _ => False

/-- The records are true of the clumps, one after the other; the offset is the sum of the displacements told so far. -/
def Truthful {T : Type} (l : List T) : Int → List (DiffClump T) → List Record → Prop
  | _, _, [] => True
  | _, [], _ :: _ => False
  | offset, c :: cs, r :: log => TrueOf l offset c r.message ∧ Truthful l (offset + r.message.displacement) cs log

/-! ## Numbers, levels and statistics -/

section told

variable {T : Type} {C : Type} [TextClump C T] [DecidableEq T] [Item T]

open LW

variable {p : Profile} {l : List T} {rev : Bool} {n : Nat} {c : C} {next : Option C} {pd : ConsumableSeq T} {offset o : Int}
  {st st' : Statistics} {r : Record}

omit [Item T] in
theorem Told.number (h : Told p l rev n c next pd offset st r o st') : r.message.clump = some n := by cases h <;> rfl

omit [Item T] in
theorem Told.proper (h : Told p l rev n c next pd offset st r o st') : Proper r := by
  cases h <;> exact ⟨rfl, _, rfl, rfl⟩

/-- The statistics are those of the messages, added to `st`. -/
structure Counted (st : Statistics) (log : List Record) (st' : Statistics) : Prop where
  clean : st'.clean = st.clean + countKind log .clean
  fuzzy : st'.fuzzy = st.fuzzy + countKind log .fuzzy
  already : st'.alreadyApplied = st.alreadyApplied + countKind log .already
  alreadyFuzzy : st'.alreadyAppliedFuzzy = st.alreadyAppliedFuzzy + countKind log .alreadyFuzzy
  failed : st'.failed = st.failed + countKind log .failed

omit [Item T] in
theorem Told.counted (h : Told p l rev n c next pd offset st r o st') : Counted st [r] st' := by
  cases h <;> exact ⟨rfl, rfl, rfl, rfl, rfl⟩

theorem countKind_append (a b : List Record) (k : Kind) : countKind (a ++ b) k = countKind a k + countKind b k := by
  simp [countKind]

theorem Counted.trans {a b : List Record} {s s' s'' : Statistics} (h : Counted s a s') (g : Counted s' b s'') :
    Counted s (a ++ b) s'' := by
  constructor
  · rw [g.clean, h.clean, countKind_append, Nat.add_assoc]
  · rw [g.fuzzy, h.fuzzy, countKind_append, Nat.add_assoc]
  · rw [g.already, h.already, countKind_append, Nat.add_assoc]
  · rw [g.alreadyFuzzy, h.alreadyFuzzy, countKind_append, Nat.add_assoc]
  · rw [g.failed, h.failed, countKind_append, Nat.add_assoc]

theorem NumberedFrom.nil (n : Nat) : NumberedFrom n [] := fun i h => absurd h (by simp)

theorem NumberedFrom.cons {n : Nat} {r : Record} {log : List Record} (h : r.message.clump = some (n + 1))
    (g : NumberedFrom (n + 1) log) : NumberedFrom n (r :: log) := by
  intro i hi
  cases i with
  | zero => exact h
  | succ i =>
    have := g i (by simpa using hi)
    rw [List.getElem_cons_succ, this]
    congr 1
    omega

theorem applyLoopL_logs (p : Profile) (l : List T) (rev : Bool) (n : Nat) (cs : List C) (pd : ConsumableSeq T) (offset : Int)
    (st : Statistics) :
    Logs (applyLoopL p l rev n cs pd offset st)
      (fun x ex => NumberedFrom n ex ∧ (∀ r ∈ ex, Proper r) ∧ ex.length = cs.length ∧ Counted st ex x.2)
      (fun ex => NumberedFrom n ex ∧ (∀ r ∈ ex, Proper r) ∧ ex.length < cs.length) := by
  induction cs generalizing n pd offset st with
  | nil =>
    exact .pure ⟨.nil n, by simp, rfl, by constructor <;> rfl⟩
  | cons c cs ih =>
    refine .bind (applyStepL_logs p l rev (n + 1) c cs.head? pd offset st) ?_ ?_
    · rintro _ rfl
      exact ⟨.nil n, by simp, by simp⟩
    · rintro ⟨pd', o, st'⟩ _ ⟨r, rfl, h⟩
      refine (ih (n + 1) pd' o st').mono ?_ ?_
      · rintro x ex ⟨h1, h2, h3, h4⟩
        refine ⟨.cons h.number h1, ?_, by simp [h3], h.counted.trans h4⟩
        intro r' hr'
        simp only [List.singleton_append, List.mem_cons] at hr'
        rcases hr' with rfl | hr'
        · exact h.proper
        · exact h2 r' hr'
      · rintro ex ⟨h1, h2, h3⟩
        refine ⟨.cons h.number h1, ?_, by simpa using h3⟩
        intro r' hr'
        simp only [List.singleton_append, List.mem_cons] at hr'
        rcases hr' with rfl | hr'
        · exact h.proper
        · exact h2 r' hr'

theorem applyIntoL_logs (p : Profile) (cs : List C) (l : List T) (rev : Bool) :
    Logs (applyIntoL p cs l rev)
      (fun st ex => NumberedFrom 0 ex ∧ (∀ r ∈ ex, Proper r) ∧ ex.length = cs.length ∧ Counted {} ex st)
      (fun ex => NumberedFrom 0 ex ∧ (∀ r ∈ ex, Proper r) ∧ ex.length ≤ cs.length) := by
  refine .bind (applyLoopL_logs p l rev 0 cs _ 0 {}) (fun ex h => ⟨h.1, h.2.1, by omega⟩) ?_
  rintro ⟨pd, st⟩ ex ⟨h1, h2, h3, h4⟩
  refine .quiet_bind (by simp only [List.append_nil]; exact ⟨h1, h2, by omega⟩) fun _ _ _ _ => .pure ?_
  simp only [List.append_nil]
  exact ⟨h1, h2, h3, h4⟩

end told

/-! ## Truth -/

section truth

variable {T : Type} [DecidableEq T] [Item T] [LawfulItem T]

open LW

theorem LW.Logs.and_post {α : Type} {m : LW α} {n : WM α} {Q : α → List Record → Prop} {E : List Record → Prop} {P : α → Prop}
    (h : Logs m Q E) (e : Erases m n) (hp : WM.Post n P) : Logs m (fun a ex => Q a ex ∧ P a) E := by
  refine ⟨fun s => ?_⟩
  obtain ⟨ex, h1, h2, h3⟩ := h.added s
  obtain ⟨e1, -⟩ := e.same s.1 s.2
  refine ⟨ex, h1, fun a ha => ⟨h2 a ha, ?_⟩, h3⟩
  have e2 : (m s).1 = (n s.1).1 := e1
  exact hp s.1 a (n s.1).2 (Prod.ext (e2.symm.trans ha) rfl)

omit [Item T] [LawfulItem T] in
/-- What a step has found out is so. -/
theorem Told.tells {p : Profile} {l : List T} {k n : Nat} {offset o : Int} {c : DiffClump T} {next : Option (DiffClump T)}
    {st st' : Statistics} {r : Record} (h : Told p l false n c next ⟨l, k⟩ offset st r o st')
    (hc : c.WellFormed) (hw : ∀ n ∈ next, n.WellFormed)
    (ho : -(sizeLimit : Int) < offset ∧ offset < sizeLimit) (hl : l.length < sizeLimit) (hk : k < sizeLimit) :
    TrueOf l offset c r.message ∧ o = offset + r.message.displacement := by
  have sb := sideBefore p hc
  have sa := sideAfter p hc
  have zb := hc.sizeBefore
  have za := hc.sizeAfter
  have wb : ∀ x, willApply p c l offset false = .ok x → Fits c.before.items c.contextLengths l (c.before.start + offset) x := by
    intro x hx
    obtain ⟨r1, e1, f1⟩ := willApply_spec sb hc.ctxBefore l (offset := offset)
      (by simp only [sizeLimit, halfWord] at *; omega) (by simp only [sizeLimit, halfWord] at *; omega)
    rw [hx] at e1
    cases e1
    exact f1
  have wa : ∀ x, clumpIsAlreadyApplied p c l offset false = .ok x →
      Fits c.after.items c.contextLengths l (c.after.start + offset) x := by
    intro x hx
    obtain ⟨r1, e1, f1⟩ := willApply_spec sa hc.ctxAfter l (offset := offset)
      (by simp only [sizeLimit, halfWord] at *; omega) (by simp only [sizeLimit, halfWord] at *; omega)
    have hx : willApply p c l offset true = .ok x := hx
    rw [hx] at e1
    cases e1
    exact f1
  have nb : ∀ d w, willApplyNearby p c ⟨l, k⟩ next offset false = .ok (some (d, w)) →
      d ≠ 0 ∧ Fits c.before.items c.contextLengths l (c.before.start + offset + d) (some w) ∧
      iadd p offset d = .ok (offset + d) := by
    intro d w hx
    obtain ⟨u1, u2⟩ := nearby_searched p sb hc.ctxBefore zb (l := l) (k := k) (next := next)
      (nside := next.map DiffClump.before) rfl hw ho hl hk
    by_cases hu : p = .debug ∧ Underflow l c.contextLengths c.before (next.map DiffClump.before) offset
    · rw [u1 hu] at hx
      cases hx
    · obtain ⟨r2, e2, f2⟩ := u2 hu
      rw [hx] at e2
      cases e2
      have hb := offset_bounds hc.ctxBefore zb hl (off := offset + d) (w := w) (by
        rw [← Int.add_assoc]; exact f2.2.1)
      refine ⟨?_, f2.2.1, iadd_ok (by simp only [sizeLimit, halfWord] at *; omega) (by simp only [sizeLimit, halfWord] at *; omega)⟩
      rcases f2.1 with h | h <;> omega
  have na : ∀ d w, clumpIsAlreadyAppliedNearby p c ⟨l, k⟩ next offset false = .ok (some (d, w)) →
      d ≠ 0 ∧ Fits c.after.items c.contextLengths l (c.after.start + offset + d) (some w) ∧
      iadd p offset d = .ok (offset + d) := by
    intro d w hx
    have hx : willApplyNearby p c ⟨l, k⟩ next offset true = .ok (some (d, w)) := hx
    obtain ⟨u1, u2⟩ := nearby_searched p sa hc.ctxAfter za (l := l) (k := k) (next := next)
      (nside := next.map DiffClump.after) rfl hw ho hl hk
    by_cases hu : p = .debug ∧ Underflow l c.contextLengths c.after (next.map DiffClump.after) offset
    · rw [u1 hu] at hx
      cases hx
    · obtain ⟨r2, e2, f2⟩ := u2 hu
      rw [hx] at e2
      cases e2
      have hb := offset_bounds hc.ctxAfter za hl (off := offset + d) (w := w) (by
        rw [← Int.add_assoc]; exact f2.2.1)
      refine ⟨?_, f2.2.1, iadd_ok (by simp only [sizeLimit, halfWord] at *; omega) (by simp only [sizeLimit, halfWord] at *; omega)⟩
      rcases f2.1 with h | h <;> omega
  have same : offset = offset + (0 : Int) := (Int.add_zero _).symm
  cases h with
  | clean h1 => exact ⟨wb _ h1, same⟩
  | reduced h1 =>
    obtain ⟨f, k, -, -, rfl, g, -⟩ := wb _ h1
    exact ⟨⟨f, g⟩, same⟩
  | nearby h1 h2 h3 =>
    obtain ⟨g1, g2, g3⟩ := nb _ _ h2
    rw [g3] at h3
    exact ⟨⟨g1, wb _ h1, g2⟩, (Outcome.ok.inj h3).symm⟩
  | nearbyReduced h1 h2 h3 =>
    obtain ⟨g1, ⟨-, k, -, -, rfl, g, -⟩, g3⟩ := nb _ _ h2
    rw [g3] at h3
    exact ⟨⟨g1, wb _ h1, g⟩, (Outcome.ok.inj h3).symm⟩
  | already h1 h2 h3 => exact ⟨⟨wb _ h1, wa _ h3⟩, same⟩
  | alreadyReduced h1 h2 h3 =>
    obtain ⟨f, k, -, -, rfl, g, -⟩ := wa _ h3
    exact ⟨⟨wb _ h1, f, g⟩, same⟩
  | alreadyNearby h1 h2 h3 h4 h5 =>
    obtain ⟨g1, g2, g3⟩ := na _ _ h4
    rw [g3] at h5
    exact ⟨⟨g1, wb _ h1, wa _ h3, g2⟩, (Outcome.ok.inj h5).symm⟩
  | alreadyNearbyReduced h1 h2 h3 h4 h5 =>
    obtain ⟨g1, ⟨-, k, -, -, rfl, g, -⟩, g3⟩ := na _ _ h4
    rw [g3] at h5
    exact ⟨⟨g1, wb _ h1, wa _ h3, g⟩, (Outcome.ok.inj h5).symm⟩
  | failed h1 h2 h3 h4 => exact ⟨⟨wb _ h1, wa _ h3⟩, same⟩

theorem WM.Post.emit {α : Type} {out : List UInt8} {a : α} {P : α → Prop} (h : P a) : WM.Post (WM.emit out (.ok a)) P := by
  intro w b w' e
  rw [WM.emit_apply] at e
  have := congrArg Prod.fst e
  cases hr : w.room with
  | none =>
    simp only [hr] at this
    exact Outcome.ok.inj this ▸ h
  | some n =>
    simp only [hr] at this
    split at this
    · exact Outcome.ok.inj this ▸ h
    · cases this

/-- How far the file is dealt with after a step. -/
theorem applyStep_keeps (p : Profile) {l : List T} {k : Nat} {offset : Int} {c : DiffClump T} {next : Option (DiffClump T)}
    (st : Statistics) (hc : c.WellFormed) (hw : ∀ n ∈ next, n.WellFormed)
    (ho : -(sizeLimit : Int) < offset ∧ offset < sizeLimit) (hl : l.length < sizeLimit) (hk : k < sizeLimit) :
    WM.Post (applyStep p l false c next ⟨l, k⟩ offset st) fun x => ∃ k', x.1 = ⟨l, k'⟩ ∧
      (-(sizeLimit : Int) < x.2.1 ∧ x.2.1 < sizeLimit) ∧
      max k' l.length ≤ max k l.length + (c.before.items.length + c.after.items.length) := by
  have sb := sideBefore p hc
  have sa := sideAfter p hc
  have zb := hc.sizeBefore
  have za := hc.sizeAfter
  rcases step_of_decides p (l := l) (k := k) (next := next) st hc hw ho hl hk with
    ⟨h1, h2⟩ | ⟨d, w, h1, h2⟩ | ⟨d, w, h1, h2⟩ | ⟨h1, h2⟩
  · rw [h2]
    intro w b w' e
    rw [WM.emit_apply] at e
    have := congrArg Prod.fst e
    cases hr : w.room <;> simp [hr] at this
  · rw [h2]
    have hf := h1.apply_fits
    have hob := offset_bounds hc.ctxBefore zb hl hf
    obtain ⟨b1, b2, b3, b4⟩ := fits_some_bounds hc.ctxBefore hf
    have hcb := hc.ctxBefore
    have hplace : (placeOf c.before (offset + d) w : Int) = c.before.start + (offset + d) + w.redn.1 := by
      unfold placeOf; omega
    have hcov : coveredBy c.before w = c.before.items.length - w.redn.1 - w.redn.2 := rfl
    cases hwr : writtenFor c.after w with
    | some ls =>
      rw [(applyInto_written p hc hl (by omega) hf).1 ls hwr]
      refine .bind' (.emit (P := fun x => x = _) rfl) fun a ha => .pure ⟨_, ha, hob, by omega⟩
    | none =>
      rw [(applyInto_written p hc hl (by omega) hf).2 hwr, WM.emit_bind_panic]
      intro w b w' e
      rw [WM.emit_apply] at e
      have := congrArg Prod.fst e
      revert this
      cases w.room with
      | none => simp
      | some n =>
        simp only
        split <;> simp
  · rw [h2]
    have hf := h1.already_fits
    have hob := offset_bounds hc.ctxAfter za hl hf
    obtain ⟨b1, b2, b3, b4⟩ := fits_some_bounds hc.ctxAfter hf
    have hca := hc.ctxAfter
    have hplace : (placeOf c.after (offset + d) w : Int) = c.after.start + (offset + d) + w.redn.1 := by
      unfold placeOf; omega
    have hcov : coveredBy c.after w = c.after.items.length - w.redn.1 - w.redn.2 := rfl
    rw [already_written p hc hl hf]
    refine .bind' (.emit (P := fun x => x = _) rfl) fun a ha => .pure ⟨_, ha, hob, by omega⟩
  · rw [h2]
    exact .bind fun _ => .pure ⟨k, rfl, ho, by omega⟩

theorem applyLoopL_truthful (p : Profile) {l : List T} (n : Nat) (cs : List (DiffClump T)) (k : Nat) (offset : Int)
    (st : Statistics) (hw : ∀ c ∈ cs, c.WellFormed) (ho : -(sizeLimit : Int) < offset ∧ offset < sizeLimit)
    (hk : max k l.length + weight cs < sizeLimit) :
    Logs (applyLoopL p l false n cs ⟨l, k⟩ offset st) (fun _ ex => Truthful l offset cs ex) (Truthful l offset cs) := by
  induction cs generalizing n k offset st with
  | nil => exact .pure trivial
  | cons c cs ih =>
    have hc := hw c (by simp)
    have hws : ∀ c ∈ cs, c.WellFormed := fun d hd => hw d (List.mem_cons_of_mem _ hd)
    have hnext : ∀ n ∈ cs.head?, n.WellFormed := fun n hn => hws n (List.mem_of_mem_head? hn)
    have hwt : weight (c :: cs) = c.before.items.length + c.after.items.length + weight cs := rfl
    refine .bind ((applyStepL_logs p l false (n + 1) c cs.head? ⟨l, k⟩ offset st).and_post (applyStepL_erases ..)
      (applyStep_keeps p st hc hnext ho (by omega) (by omega))) ?_ ?_
    · rintro _ rfl
      trivial
    · rintro ⟨pd', o, st'⟩ _ ⟨⟨r, rfl, h⟩, k', e, hb, hm⟩
      obtain rfl : pd' = ⟨l, k'⟩ := e
      obtain ⟨h1, h2⟩ := h.tells hc hnext ho (by omega) (by omega)
      simp only at h2 hb
      subst h2
      exact (ih (n + 1) k' _ st' hws hb (by omega)).mono (fun _ ex hx => ⟨h1, hx⟩) (fun ex hx => ⟨h1, hx⟩)

theorem applyIntoL_truthful (p : Profile) (l : List T) (cs : List (DiffClump T)) (hw : ∀ c ∈ cs, c.WellFormed)
    (hsz : l.length + weight cs < sizeLimit) :
    Logs (applyIntoL p cs l false) (fun _ ex => Truthful l 0 cs ex) (Truthful l 0 cs) := by
  refine .bind (applyLoopL_truthful p 0 cs 0 0 {} hw (by simp only [sizeLimit]; omega) (by omega)) (fun _ h => h) ?_
  rintro ⟨pd, st⟩ ex h
  refine .quiet_bind (by simpa using h) fun _ _ _ _ => .pure (by simpa using h)

omit [LawfulItem T] in
/-- Reversed, the messages are those of the patch with before and after exchanged. -/
theorem applyIntoL_swap (p : Profile) (l : List T) (cs : List (DiffClump T)) (rev : Bool) :
    applyIntoL p (cs.map DiffClump.swap) l rev = applyIntoL p cs l (!rev) := by
  have step : ∀ (n : Nat) (c : DiffClump T) (next : Option (DiffClump T)) (pd : ConsumableSeq T) (o : Int) (st : Statistics),
      applyStepL p l rev n c.swap (next.map DiffClump.swap) pd o st = applyStepL p l (!rev) n c next pd o st := by
    intro n c next pd o st
    simp only [applyStepL, Swap.willApply', Swap.applyInto', Swap.nearby, clumpIsAlreadyApplied, clumpIsAlreadyAppliedNearby,
      Swap.already, Swap.failure]
  have loop : ∀ (cs : List (DiffClump T)) (n : Nat) (pd : ConsumableSeq T) (o : Int) (st : Statistics),
      applyLoopL p l rev n (cs.map DiffClump.swap) pd o st = applyLoopL p l (!rev) n cs pd o st := by
    intro cs
    induction cs with
    | nil => intros; rfl
    | cons c cs ih =>
      intro n pd o st
      simp only [List.map_cons, applyLoopL, Swap.head?_map, step, ih]
  simp only [applyIntoL, loop]

end truth

end PwDiff
