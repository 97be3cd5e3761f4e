import Verif.Proofs.Text

/-! # C01–C07: sequences -/

namespace PwDiff

variable {T : Type}

/-! ## C01 -/

/-- A sample text with a multi-byte character and no final newline, used in the examples below. -/
def sampleText : Str := ['a', 'é', '\n', '\n', 'b']

/-- Reading then writing everything is the identity on bytes. -/
theorem C01_read_write (p : Profile) (r : Reader) (ls : List Str) (h : readText r = .ok ls) :
    (writeIntoAllFrom p ls 0).run = (.ok (), r.data) := by
  obtain ⟨_, s, hs, rfl⟩ := (readText_eq_ok_iff r ls).1 h
  have : writeIntoAllFrom p (splitInclusive s) 0 = WM.emit r.data (.ok ()) := by
    have hd : debugAssert p (decide (0 ≤ (splitInclusive s).length)) = .ok () := by cases p <;> simp [debugAssert]
    unfold writeIntoAllFrom
    rw [hd]
    simp only [WM.liftM_eq, WM.lift_ok_bind, sliceFrom, Nat.zero_le, if_true, List.drop_zero]
    show writeStrs _ = _
    rw [writeStrs_eq, flatMap_bytes, flatten_splitInclusive, hs, WM.writeAll_eq_emit]
  rw [this, WM.run_emit]

example : readText ⟨sampleText.bytes, false⟩ = .ok [['a', 'é', '\n'], ['\n'], ['b']] := by
  rw [readText_bytes]; decide

/-- The same for `Seq::from` on a string. -/
theorem C01_from_write (p : Profile) (s : Str) : (writeIntoAllFrom p (fromText s) 0).run = (.ok (), s.bytes) :=
  C01_read_write p ⟨s.bytes, false⟩ _ (readText_bytes s)

/-- The same for byte sequences. -/
theorem C01_bytes (p : Profile) (r : Reader) (bs : List UInt8) (h : readBytes r = .ok bs) :
    (writeIntoAllFrom p bs 0).run = (.ok (), r.data) := by
  unfold readBytes at h
  split at h
  · simp at h
  · injection h with h
    subst h
    cases p <;> rfl

example : readBytes ⟨[0, 255, 10], false⟩ = .ok [0, 255, 10] := by decide

/-! ## C02 -/

/-- Specification of "the lines of `s`". -/
structure IsLines (s : Str) (ls : List Str) : Prop where
  joined : ls.flatten = s
  nonempty : ∀ l ∈ ls, l ≠ []
  inner : ∀ l ∈ ls, '\n' ∉ l.dropLast
  ended : ∀ l ∈ ls.dropLast, l.getLast? = some '\n'

theorem splitInclusive_ne_nil {s : Str} (h : s ≠ []) : splitInclusive s ≠ [] := by
  obtain ⟨l, rest, f, h1, -⟩ := splitInclusive_step s h
  rw [h1]; simp

theorem isLines_splitInclusive (s : Str) : IsLines s (splitInclusive s) := by
  induction s with
  | nil => constructor <;> simp [splitInclusive]
  | cons c cs ih =>
    by_cases hc : c = '\n'
    · subst hc
      rw [splitInclusive_newline]
      refine ⟨by simp [ih.joined], ?_, ?_, ?_⟩
      · intro l hl
        rcases List.mem_cons.1 hl with rfl | hl
        · simp
        · exact ih.nonempty l hl
      · intro l hl
        rcases List.mem_cons.1 hl with rfl | hl
        · simp
        · exact ih.inner l hl
      · intro l hl
        cases hcs : splitInclusive cs with
        | nil => rw [hcs] at hl; simp at hl
        | cons l' ls' =>
          rw [hcs, List.dropLast_cons_of_ne_nil (by simp)] at hl
          rcases List.mem_cons.1 hl with rfl | hl
          · rfl
          · exact ih.ended l (by rw [hcs]; exact hl)
    · cases hcs : splitInclusive cs with
      | nil =>
        have : cs = [] := by
          cases cs with
          | nil => rfl
          | cons d ds => exact absurd hcs (splitInclusive_ne_nil (by simp))
        subst this
        rw [splitInclusive_single hc]
        constructor <;> simp
      | cons l ls =>
        rw [splitInclusive_cons hc hcs]
        rw [hcs] at ih
        have hl : l ≠ [] := ih.nonempty l (by simp)
        refine ⟨by have := ih.joined; simpa using this, ?_, ?_, ?_⟩
        · intro x hx
          rcases List.mem_cons.1 hx with rfl | hx
          · simp
          · exact ih.nonempty x (by simp [hx])
        · intro x hx
          rcases List.mem_cons.1 hx with rfl | hx
          · rw [List.dropLast_cons_of_ne_nil hl]
            have := ih.inner l (by simp)
            simp [Ne.symm hc, this]
          · exact ih.inner x (by simp [hx])
        · intro x hx
          cases ls with
          | nil => simp at hx
          | cons l2 ls =>
            rw [List.dropLast_cons_of_ne_nil (by simp)] at hx
            rcases List.mem_cons.1 hx with rfl | hx
            · have := ih.ended l (by simp)
              cases l with
              | nil => exact absurd rfl hl
              | cons d ds => simpa [List.getLast?_cons] using this
            · exact ih.ended x (by rw [List.dropLast_cons_of_ne_nil (by simp)]; simp [hx])

/-- Two line splittings of the same text are equal, so the four clauses of `IsLines` determine the items. -/
theorem isLines_unique {s : Str} {ls ms : List Str} (h1 : IsLines s ls) (h2 : IsLines s ms) : ls = ms := by
  induction ls generalizing s ms with
  | nil =>
    have : s = [] := by rw [← h1.joined]; rfl
    cases ms with
    | nil => rfl
    | cons m ms =>
      have h3 := h2.joined
      have h4 := h2.nonempty m (by simp)
      rw [this] at h3
      simp at h3
      exact absurd h3.1 h4
  | cons l ls ih =>
    have hl := h1.nonempty l (by simp)
    cases ms with
    | nil =>
      have h3 : s = [] := by rw [← h2.joined]; rfl
      have h4 := h1.joined
      rw [h3] at h4
      simp at h4
      exact absurd h4.1 hl
    | cons m ms =>
      have hm := h2.nonempty m (by simp)
      have hj : l ++ ls.flatten = m ++ ms.flatten := by
        have := h1.joined.trans h2.joined.symm
        simpa using this
      -- the first lines agree
      have first : ∀ (l m : Str) (ls ms : List Str), l ≠ [] → m ≠ [] → l ++ ls.flatten = m ++ ms.flatten →
          (ls ≠ [] → l.getLast? = some '\n') → '\n' ∉ m.dropLast → (∀ x ∈ ls, x ≠ []) → m.length ≤ l.length →
          l = m ∨ '\n' ∈ l.dropLast ∨ (ms ≠ [] ∧ m.getLast? ≠ some '\n') := by
        intro l m ls ms hl hm hj hend hin hne hlen
        by_cases he : m.length = l.length
        · left
          exact List.append_inj_left hj he.symm
        · right
          have hlt : m.length < l.length := by omega
          have hpre : m = l.take m.length := by
            have := congrArg (List.take m.length) hj
            rw [List.take_append_of_le_length (by omega), List.take_left'] at this
            · exact this.symm
            · rfl
          by_cases hlast : m.getLast? = some '\n'
          · left
            have hmem : '\n' ∈ m := List.mem_of_getLast? hlast
            rw [hpre] at hmem
            have : l.take m.length = (l.dropLast).take m.length := by
              rw [List.dropLast_eq_take, List.take_take, Nat.min_eq_left (by omega)]
            rw [this] at hmem
            exact List.mem_of_mem_take hmem
          · right
            refine ⟨?_, hlast⟩
            rintro rfl
            have := congrArg List.length hj
            simp at this
            omega
      have e : l = m := by
        have endl : ls ≠ [] → l.getLast? = some '\n' := by
          intro h; exact h1.ended l (by rw [List.dropLast_cons_of_ne_nil h]; simp)
        have endm : ms ≠ [] → m.getLast? = some '\n' := by
          intro h; exact h2.ended m (by rw [List.dropLast_cons_of_ne_nil h]; simp)
        rcases Nat.le_total m.length l.length with h | h
        · rcases first l m ls ms hl hm hj endl (h2.inner m (by simp)) (fun x hx => h1.nonempty x (by simp [hx])) h with
            h | h | h
          · exact h
          · exact absurd h (h1.inner l (by simp))
          · exact absurd (endm h.1) h.2
        · rcases first m l ms ls hm hl hj.symm endm (h1.inner l (by simp))
            (fun x hx => h2.nonempty x (by simp [hx])) h with h | h | h
          · exact h.symm
          · exact absurd h (h2.inner m (by simp))
          · exact absurd (endl h.1) h.2
      subst e
      have tail : ∀ {ks : List Str}, IsLines s (l :: ks) → IsLines ks.flatten ks := by
        intro ks hk
        refine ⟨rfl, fun x hx => hk.nonempty x (by simp [hx]), fun x hx => hk.inner x (by simp [hx]), ?_⟩
        intro x hx
        apply hk.ended
        cases ks with
        | nil => simp at hx
        | cons y ys => rw [List.dropLast_cons_of_ne_nil (by simp)]; simp [hx]
      have hfl : ls.flatten = ms.flatten := List.append_cancel_left hj
      have t2 := tail h2
      rw [← hfl] at t2
      rw [ih (tail h1) t2]

/-- `read` and `From<&str>` produce exactly the lines of the text. -/
theorem C02_lines (s : Str) :
    IsLines s (fromText s) ∧ (∀ ls, IsLines s ls → ls = fromText s) ∧
      readText ⟨s.bytes, false⟩ = .ok (fromText s) :=
  ⟨isLines_splitInclusive s, fun _ h => isLines_unique h (isLines_splitInclusive s), readText_bytes s⟩

example : IsLines sampleText [['a', 'é', '\n'], ['\n'], ['b']] := by constructor <;> decide

/-! ## C03 -/

/-- Text reading accepts exactly valid UTF-8 from a reader that does not fail, and otherwise returns an io error. -/
theorem C03_utf8 (r : Reader) :
    ((∃ ls, readText r = .ok ls) ↔ r.fails = false ∧ (ByteArray.mk r.data.toArray).IsValidUTF8) ∧
    ((∃ ls, readText r = .ok ls) ∨ readText r = .ioErr) := by
  refine ⟨?_, (readText_total r).symm⟩
  constructor
  · rintro ⟨ls, h⟩
    obtain ⟨h1, s, h2, _⟩ := (readText_eq_ok_iff r ls).1 h
    refine ⟨h1, s, ?_⟩
    rw [utf8Encode_eq, h2]
  · rintro ⟨h1, s, h2⟩
    refine ⟨_, (readText_eq_ok_iff r _).2 ⟨h1, s, ?_, rfl⟩⟩
    rw [utf8Encode_eq] at h2
    have := congrArg (fun b => b.data.toList) h2
    simpa using this.symm

/-- Byte reading always succeeds with the input (unless the reader fails). -/
theorem C03_bytes (r : Reader) : readBytes r = if r.fails then .ioErr else .ok r.data := rfl

/-- An input that is rejected as text (a lone continuation byte in the second line). -/
example : readText ⟨[97, 10, 128], false⟩ = .ioErr := by
  rcases readText_total ⟨[97, 10, 128], false⟩ with h | ⟨ls, h⟩
  · exact h
  · exfalso
    have := ((C03_utf8 _).1.1 ⟨ls, h⟩).2
    rw [← ByteArray.validateUTF8_eq_true_iff] at this
    exact absurd this (by decide)

/-! ## C04 -/

/-- What `indices` must return for a sequence (specification). -/
def ExactIndices (l : List T) (f : Indices T) : Prop :=
  ∀ x, (f x = none ↔ x ∉ l) ∧ ∀ is, f x = some is → is.Pairwise (· < ·) ∧ ∀ i, i ∈ is ↔ l[i]? = some x

theorem exactIndices_of_eq [DecidableEq T] {l : List T} {f : Indices T}
    (h : ∀ x, f x = if x ∈ l then some (positions l x) else none) : ExactIndices l f := by
  intro x
  rw [h x]
  constructor
  · by_cases hx : x ∈ l <;> simp [hx]
  · intro is his
    by_cases hx : x ∈ l
    · simp [hx] at his
      subst his
      exact ⟨positions_sorted l x, fun i => mem_positions⟩
    · simp [hx] at his

/-- The string table. -/
theorem C04_string (l : List Str) : ExactIndices l (Item.generateFrom l) := exactIndices_of_eq (mapIndices_eq l)

/-- The byte table. -/
theorem C04_bytes (l : List UInt8) : ExactIndices l (Item.generateFrom l) := exactIndices_of_eq (byteIndices_eq l)

/-- The specification determines the table. -/
theorem C04_unique {l : List T} {f g : Indices T} (hf : ExactIndices l f) (hg : ExactIndices l g) : f = g := by
  funext x
  have hn : f x = none ↔ g x = none := (hf x).1.trans (hg x).1.symm
  cases h1 : f x with
  | none => exact (hn.1 h1).symm
  | some is =>
    cases h2 : g x with
    | none => rw [hn.2 h2] at h1; simp at h1
    | some js =>
      obtain ⟨a1, a2⟩ := (hf x).2 is h1
      obtain ⟨b1, b2⟩ := (hg x).2 js h2
      have nd : ∀ {ks : List Nat}, ks.Pairwise (· < ·) → ks.Nodup := fun h => h.imp (fun h => Nat.ne_of_lt h)
      have hp : is.Perm js := (List.perm_ext_iff_of_nodup (nd a1) (nd b1)).2 (fun i => (a2 i).trans (b2 i).symm)
      rw [hp.eq_of_pairwise (le := (· < ·)) (fun a b _ _ hab hba => by omega) a1 b1]

example : (Item.generateFrom [5, 7, 5] : Indices UInt8) 5 = some [0, 2] := by decide

/-! ## C05 -/

theorem all_zip_eq [DecidableEq T] (xs ys : List T) (h : xs.length ≤ ys.length) :
    ((xs.zip ys).all (fun (b, a) => a == b)) = true ↔ ys.take xs.length = xs := by
  induction xs generalizing ys with
  | nil => simp
  | cons x xs ih =>
    cases ys with
    | nil => simp at h
    | cons y ys =>
      simp at h
      simp only [List.zip_cons_cons, List.all_cons, Bool.and_eq_true, beq_iff_eq, List.length_cons,
        List.take_succ_cons, List.cons.injEq]
      rw [ih ys h]

/-- `has_subsequence_at` never panics and is exact. -/
theorem C05_has_subsequence_at [DecidableEq T] (p : Profile) (seq sub : List T) (pos : Nat) :
    ∃ b, hasSubsequenceAt p seq sub pos = .ok b ∧
      (b = true ↔ pos < seq.length ∧ pos + sub.length ≤ seq.length ∧
        ∀ k < sub.length, seq[pos + k]? = sub[k]?) := by
  unfold hasSubsequenceAt
  by_cases h1 : pos < seq.length
  · simp only [h1, if_true]
    rw [usub_ok (by omega)]
    simp only [Outcome.ok_bind]
    by_cases h2 : seq.length - pos ≥ sub.length
    · simp only [h2, if_true, sliceFrom, Nat.le_of_lt h1]
      refine ⟨_, rfl, ?_⟩
      rw [all_zip_eq _ _ (by simp; omega)]
      constructor
      · intro h
        refine ⟨trivial, by omega, ?_⟩
        intro k hk
        rw [← h, List.getElem?_take]
        simp [hk]
      · rintro ⟨_, _, h⟩
        apply List.ext_getElem?
        intro k
        rw [List.getElem?_take]
        by_cases hk : k < sub.length
        · simp only [hk, if_true, List.getElem?_drop]
          exact h k hk
        · simp only [hk, if_false]
          rw [List.getElem?_eq_none (by omega)]
    · refine ⟨false, by simp only [h2, if_false]; rfl, ?_⟩
      simp; intro h; omega
  · exact ⟨false, by simp [h1], by simp [h1]⟩

example : hasSubsequenceAt .debug [1, 2, 3, 4] [2, 3] 1 = .ok true := by decide
example : hasSubsequenceAt .release [1, 2, 3, 4] ([] : List Nat) 4 = .ok false := by decide

/-! ## C06 -/

theorem writeInto_eq [DecidableEq T] [Item T] [LawfulItem T] (p : Profile) (seq : List T) (r : Range) :
    writeInto p seq r = if r.start ≤ r.fin ∧ r.fin ≤ seq.length then
        WM.emit (bytesOf (cut seq r.start r.fin)) (.ok ()) else WM.emit [] .panic := by
  unfold writeInto
  by_cases h : r.start ≤ r.fin ∧ r.fin ≤ seq.length
  · have hd : debugAssert p (r.isValidForMaxEnd seq.length) = .ok () := by
      cases p <;> simp [debugAssert, Range.isValidForMaxEnd, Range.isValid, h]
    rw [hd, slice_ok h.1 h.2]
    simp [h, LawfulItem.writeItems_eq, ← WM.writeAll_eq_emit, bytesOf, cut]
  · rw [if_neg h, ← WM.lift_eq_emit]
    have hs : slice seq r.start r.fin = .panic := by simp only [slice]; rw [if_neg h]
    rw [hs]
    cases p with
    | debug =>
      have : debugAssert .debug (r.isValidForMaxEnd seq.length) = .panic := by
        have : r.isValidForMaxEnd seq.length = false := by
          simp [Range.isValidForMaxEnd, Range.isValid]
          intro h1
          simp [h1] at h
          exact h
        simp [debugAssert, this]
      rw [this]; rfl
    | release => rfl

theorem writeIntoAllFrom_eq [DecidableEq T] [Item T] [LawfulItem T] (p : Profile) (seq : List T) (start : Nat) :
    writeIntoAllFrom p seq start = if start ≤ seq.length then
        WM.emit (bytesOf (seq.drop start)) (.ok ()) else WM.emit [] .panic := by
  unfold writeIntoAllFrom
  by_cases h : start ≤ seq.length
  · have hd : debugAssert p (start ≤ seq.length) = .ok () := by cases p <;> simp [debugAssert, h]
    rw [hd]
    simp [h, sliceFrom, LawfulItem.writeItems_eq, ← WM.writeAll_eq_emit, bytesOf]
  · rw [if_neg h, ← WM.lift_eq_emit]
    simp only [sliceFrom, if_neg h]
    cases p with
    | debug => simp [debugAssert, h]
    | release => rfl

/-- Range writing is exact: for a valid range exactly its bytes are written, otherwise nothing is written and the
call panics (in both profiles). -/
theorem C06_write_into [DecidableEq T] [Item T] [LawfulItem T] (p : Profile) (seq : List T) (r : Range) :
    (writeInto p seq r).run = if r.start ≤ r.fin ∧ r.fin ≤ seq.length then
        (.ok (), (cut seq r.start r.fin).flatMap Item.bytes) else (.panic, []) := by
  rw [writeInto_eq]
  split <;> rw [WM.run_emit] <;> rfl

/-- The same for `write_into_all_from`. -/
theorem C06_write_into_all_from [DecidableEq T] [Item T] [LawfulItem T] (p : Profile) (seq : List T) (start : Nat) :
    (writeIntoAllFrom p seq start).run = if start ≤ seq.length then
        (.ok (), (seq.drop start).flatMap Item.bytes) else (.panic, []) := by
  rw [writeIntoAllFrom_eq]
  split <;> rw [WM.run_emit] <;> rfl

example : (writeInto .debug ([1, 2, 3, 4] : List UInt8) ⟨1, 3⟩).run = (.ok (), [2, 3]) := by decide
example : (writeInto .release ([1, 2, 3, 4] : List UInt8) ⟨3, 5⟩).run = (.panic, []) := by decide

/-! ## C07 -/

/-- A call on a `ConsumableSeq` before the final `write_remainder`. -/
inductive Call where
  | upto (n : Nat)
  | advance (n : Nat)
deriving DecidableEq, Repr

/-- Running a history of calls and then `write_remainder`. -/
def runCalls [Item T] (p : Profile) : List Call → ConsumableSeq T → WM Unit
  | [], c => do
    let _ ← c.writeRemainder p
    pure ()
  | .upto n :: calls, c => do
    let c ← c.writeIntoUpto p n
    runCalls p calls c
  | .advance n :: calls, c => do
    let c ← c.advanceConsumedBy p n
    runCalls p calls c

/-- The consumed position after a call (specification). -/
def Call.next (c : Nat) : Call → Nat
  | .upto n => max c n
  | .advance n => c + n

/-- Is item `i` skipped by one of the calls, when `c` items are consumed at the start (specification)? -/
def skipped : List Call → Nat → Nat → Bool
  | [], _, _ => false
  | .upto n :: calls, c, i => skipped calls (Call.next c (.upto n)) i
  | .advance n :: calls, c, i => (c ≤ i && i < c + n) || skipped calls (Call.next c (.advance n)) i

/-- All targets and positions stay inside the sequence (specification). -/
def callsFit (len : Nat) : List Call → Nat → Bool
  | [], c => c ≤ len
  | .upto n :: calls, c => n ≤ len && callsFit len calls (Call.next c (.upto n))
  | .advance n :: calls, c => c + n ≤ len && callsFit len calls (Call.next c (.advance n))

theorem skipped_lt (calls : List Call) (c i : Nat) (h : i < c) : skipped calls c i = false := by
  induction calls generalizing c with
  | nil => rfl
  | cons call calls ih =>
    cases call with
    | upto n => exact ih _ (by simp [Call.next]; omega)
    | advance n =>
      simp only [skipped]
      rw [ih _ (by simp [Call.next]; omega)]
      simp; omega

theorem callsFit_le {len : Nat} {calls : List Call} {c : Nat} (h : callsFit len calls c = true) : c ≤ len := by
  induction calls generalizing c with
  | nil => simpa [callsFit] using h
  | cons call calls ih =>
    cases call with
    | upto n => simp [callsFit] at h; have := ih h.2; simp [Call.next] at this; omega
    | advance n => simp [callsFit] at h; omega

theorem filterMap_congr' {α β : Type} {f g : α → Option β} {l : List α} (h : ∀ x ∈ l, f x = g x) :
    l.filterMap f = l.filterMap g := by
  induction l with
  | nil => rfl
  | cons x l ih => simp [List.filterMap_cons, h x, ih (fun y hy => h y (by simp [hy]))]

theorem filter_const_true {α : Type} (l : List α) : l.filter (fun _ => true) = l := by simp

/-- Items `c, c+1, …` that are not skipped. -/
def keptFrom (l : List T) (calls : List Call) (c : Nat) : List T :=
  (List.range' c (l.length - c)).filterMap (fun i => if skipped calls c i then none else l[i]?)

theorem filterMap_range'_eq_sub (l : List T) (a n : Nat) (h : a + n ≤ l.length) :
    (List.range' a n).filterMap (fun i => l[i]?) = (l.drop a).take n := by
  induction n generalizing a with
  | zero => simp
  | succ n ih =>
    have ha : a < l.length := by omega
    rw [List.range'_succ, List.filterMap_cons, List.getElem?_eq_getElem ha]
    simp only
    rw [ih (a + 1) (by omega), List.drop_eq_getElem_cons ha, List.take_succ_cons]

theorem runCalls_eq [DecidableEq T] [Item T] [LawfulItem T] (p : Profile) (calls : List Call) (l : List T) (c : Nat)
    (hl : l.length < wordSize) (h : callsFit l.length calls c = true) :
    runCalls p calls ⟨l, c⟩ = WM.emit (bytesOf (keptFrom l calls c)) (.ok ()) := by
  induction calls generalizing c with
  | nil =>
    have hc : c ≤ l.length := callsFit_le h
    simp only [runCalls, ConsumableSeq.writeRemainder, ConsumableSeq.rangeFrom, writeInto_eq, hc, Nat.le_refl, and_self, if_true]
    rw [show keptFrom l [] c = cut l c l.length by
      simp only [keptFrom, skipped, cut]
      exact filterMap_range'_eq_sub l c (l.length - c) (by omega)]
    rw [bind_assoc, WM.emit_bind_ok _ _ _ (by rw [pure_bind]; exact WM.pure_eq_emit _)]
    simp
  | cons call calls ih =>
    cases call with
    | upto n =>
      simp only [callsFit, Bool.and_eq_true, decide_eq_true_eq] at h
      have hd : debugAssert p (n ≤ l.length) = .ok () := by cases p <;> simp [debugAssert, h.1]
      simp only [runCalls, ConsumableSeq.writeIntoUpto, hd, WM.liftM_eq, WM.lift_ok_bind]
      by_cases hc : c < n
      · simp only [hc, if_true, writeInto_eq, Nat.le_of_lt hc, h.1, and_self]
        have hn : Call.next c (.upto n) = n := by simp [Call.next]; omega
        have := ih n (by rw [← hn]; exact h.2)
        rw [bind_assoc, WM.emit_bind_ok _ _ _ (by rw [pure_bind]; exact this)]
        congr 1
        rw [← bytesOf_append]
        congr 1
        unfold keptFrom
        rw [show l.length - c = (n - c) + (l.length - n) by omega, ← List.range'_append, List.filterMap_append]
        congr 1
        · rw [cut, ← filterMap_range'_eq_sub l c (n - c) (by omega)]
          apply filterMap_congr'
          intro i hi
          simp at hi
          rw [skipped, hn, skipped_lt calls n i (by omega)]
          rfl
        · rw [show c + 1 * (n - c) = n by omega]
          apply filterMap_congr'
          intro i hi
          rw [skipped, hn]
      · simp only [hc, if_false, pure_bind]
        have hn : Call.next c (.upto n) = c := by simp [Call.next]; omega
        rw [ih c (by rw [← hn]; exact h.2)]
        unfold keptFrom
        simp only [skipped, hn]
    | advance n =>
      simp only [callsFit, Bool.and_eq_true, decide_eq_true_eq] at h
      simp only [runCalls, ConsumableSeq.advanceConsumedBy, uadd_ok (show c + n < wordSize by omega), Outcome.ok_bind,
        Outcome.pure_eq, WM.liftM_eq, WM.lift_ok_bind]
      rw [ih (c + n) h.2]
      congr 2
      unfold keptFrom
      rw [show l.length - c = n + (l.length - (c + n)) by omega, ← List.range'_append, List.filterMap_append]
      have : (List.range' c n).filterMap (fun i => if skipped (.advance n :: calls) c i then none else l[i]?) = [] := by
        rw [List.filterMap_eq_nil_iff]
        intro i hi
        simp at hi
        simp [skipped, hi]
      rw [this, Nat.one_mul, List.nil_append]
      apply filterMap_congr'
      intro i hi
      simp at hi
      have : skipped (.advance n :: calls) c i = skipped calls (c + n) i := by
        simp [skipped, Call.next]; omega
      rw [this]

/-- Any history of calls that stays inside the sequence writes exactly the items that were not skipped by an
`advance_consumed_by`, each once and in order. -/
theorem C07_consumable [DecidableEq T] [Item T] [LawfulItem T] (p : Profile) (calls : List Call) (l : List T)
    (hl : l.length < wordSize) (h : callsFit l.length calls 0 = true) :
    (runCalls p calls (ConsumableSeq.new l)).run =
      (.ok (), (((List.range l.length).filter (fun i => !skipped calls 0 i)).filterMap (fun i => l[i]?)).flatMap Item.bytes) := by
  rw [ConsumableSeq.new, runCalls_eq p calls l 0 hl h, WM.run_emit]
  congr 1
  unfold bytesOf keptFrom
  congr 1
  rw [List.filterMap_filter, Nat.sub_zero, ← List.range_eq_range']
  apply filterMap_congr'
  intro i _
  cases skipped calls 0 i <;> rfl

/-- Without skipping: `write_into_upto` calls in any order (also decreasing) followed by `write_remainder` copy the
sequence. -/
theorem C07_copy [DecidableEq T] [Item T] [LawfulItem T] (p : Profile) (targets : List Nat) (l : List T)
    (hl : l.length < wordSize) (h : ∀ n ∈ targets, n ≤ l.length) :
    (runCalls p (targets.map .upto) (ConsumableSeq.new l)).run = (.ok (), l.flatMap Item.bytes) := by
  have fit : ∀ (ts : List Nat) (c : Nat), c ≤ l.length → (∀ n ∈ ts, n ≤ l.length) →
      callsFit l.length (ts.map .upto) c = true := by
    intro ts
    induction ts with
    | nil => intro c hc _; simpa [callsFit] using hc
    | cons t ts ih =>
      intro c hc hts
      have ht := hts t (by simp)
      simp only [List.map_cons, callsFit, Bool.and_eq_true, decide_eq_true_eq]
      exact ⟨ht, ih _ (by simp [Call.next]; omega) (fun n hn => hts n (by simp [hn]))⟩
  have nosk : ∀ (ts : List Nat) (c i : Nat), skipped (ts.map .upto) c i = false := by
    intro ts
    induction ts with
    | nil => intros; rfl
    | cons t ts ih => intro c i; exact ih _ i
  rw [C07_consumable p _ l hl (fit targets 0 (by omega) h)]
  congr 2
  simp only [nosk, Bool.not_false, filter_const_true]
  have := filterMap_range'_eq_sub l 0 l.length (by omega)
  rw [← List.range_eq_range'] at this
  rw [this]
  simp

example : callsFit 5 [.upto 2, .advance 1, .upto 1, .upto 4] 0 = true := by decide
example : (runCalls .debug [.upto 2, .advance 1, .upto 1, .upto 4] (ConsumableSeq.new ([1, 2, 3, 4, 5] : List UInt8))).run =
    (.ok (), [1, 2, 4, 5]) := by decide

example := C07_consumable .debug [.upto 2, .advance 1, .upto 1, .upto 4] ([1, 2, 3, 4, 5] : List UInt8) (by decide) (by decide)

end PwDiff
