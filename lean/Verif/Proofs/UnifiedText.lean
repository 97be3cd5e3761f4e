import Verif.Proofs.UnifiedParse
import Verif.Proofs.Patched
import Verif.Proofs.Stretch
import Verif.Proofs.Text

/-! # Generated unified clumps -/

namespace PwDiff

/-! ## The lines of the changes -/

/-- The lines of a range, marked. -/
def markedLines (m : Char) (l : List Str) (r : Range) : List Str := (cut l r.start r.fin).map (m :: ·)

/-- The lines of one change. -/
def Change.text (before after : List Str) : Change → List Str
  | .noChange c => markedLines ' ' before ⟨c.b, c.b + c.n⟩
  | .delete r _ => markedLines '-' before r
  | .insert _ r => markedLines '+' after r
  | .replace r s =>
    if r.len < s.len then markedLines '-' before r ++ markedLines '+' after s
    else markedLines '+' after s ++ markedLines '-' before r

/-- The lines of the changes. -/
def textOf (before after : List Str) (cs : List Change) : List Str := cs.flatMap (Change.text before after)

theorem marked_eq {m : Char} {l : List Str} {r : Range} (h1 : r.start ≤ r.fin) (h2 : r.fin ≤ l.length) :
    marked m l r = .ok (markedLines m l r) := by
  unfold marked
  rw [subsequence_ok h1 h2]
  rfl

theorem changeLines_eq {before after : List Str} {c : Change} (h1 : c.old.start ≤ c.old.fin) (h2 : c.old.fin ≤ before.length)
    (h3 : c.new.start ≤ c.new.fin) (h4 : c.new.fin ≤ after.length) :
    changeLines before after c = .ok (c.text before after) := by
  cases c with
  | noChange c => exact marked_eq h1 h2
  | delete r s => exact marked_eq h1 h2
  | insert s r => exact marked_eq h3 h4
  | replace r s =>
    unfold changeLines Change.text
    simp only
    rw [marked_eq (r := r) h1 h2, marked_eq (r := s) h3 h4]
    split <;> rfl

theorem changesLines_eq {before after : List Str} {cs : List Change} {i j ie je : Nat} (h : Tiles i j cs ie je)
    (hie : ie ≤ before.length) (hje : je ≤ after.length) :
    changesLines before after cs = .ok (textOf before after cs) := by
  induction cs generalizing i j with
  | nil => rfl
  | cons c cs ih =>
    obtain ⟨h1, h2, h3, h4, h5⟩ := h
    have := h5.le
    rw [changesLines, changeLines_eq h3 (by omega) h4 (by omega), ih h5]
    rfl

/-! ## Projections -/

theorem unmark_append (xs ys : List Str) : unmark (xs ++ ys) = unmark xs ++ unmark ys := List.map_append

theorem filter_marked_true {f : Str → Bool} {m : Char} (h : ∀ l, f (m :: l) = true) (l : List Str) (r : Range) :
    (markedLines m l r).filter f = markedLines m l r := by
  rw [List.filter_eq_self]
  intro x hx
  obtain ⟨y, -, rfl⟩ := List.mem_map.1 hx
  exact h y

theorem filter_marked_false {f : Str → Bool} {m : Char} (h : ∀ l, f (m :: l) = false) (l : List Str) (r : Range) :
    (markedLines m l r).filter f = [] := by
  rw [List.filter_eq_nil_iff]
  intro x hx
  obtain ⟨y, -, rfl⟩ := List.mem_map.1 hx
  simp [h y]

theorem unmark_marked (m : Char) (l : List Str) (r : Range) : unmark (markedLines m l r) = cut l r.start r.fin := by
  unfold unmark markedLines
  rw [List.map_map]
  conv => rhs; rw [← List.map_id (cut l r.start r.fin)]
  rfl

theorem old_minus (l : Str) : isOld ('-' :: l) = true := rfl
theorem old_plus (l : Str) : isOld ('+' :: l) = false := rfl
theorem old_space (l : Str) : isOld (' ' :: l) = true := rfl
theorem new_minus (l : Str) : isNew ('-' :: l) = false := rfl
theorem new_plus (l : Str) : isNew ('+' :: l) = true := rfl
theorem new_space (l : Str) : isNew (' ' :: l) = true := rfl
theorem removed_minus (l : Str) : isRemoved ('-' :: l) = true := rfl
theorem removed_plus (l : Str) : isRemoved ('+' :: l) = false := rfl
theorem removed_space (l : Str) : isRemoved (' ' :: l) = false := rfl
theorem added_minus (l : Str) : isAdded ('-' :: l) = false := rfl
theorem added_plus (l : Str) : isAdded ('+' :: l) = true := rfl
theorem added_space (l : Str) : isAdded (' ' :: l) = false := rfl

theorem text_old (before after : List Str) (c : Change) :
    unmark ((c.text before after).filter isOld) = cut before c.old.start c.old.fin := by
  cases c with
  | noChange c => simp only [Change.text, filter_marked_true old_space, unmark_marked, Change.old]
  | delete r s => simp only [Change.text, filter_marked_true old_minus, unmark_marked, Change.old]
  | insert s r => simp [Change.text, filter_marked_false old_plus, Change.old, cut_self, unmark]
  | replace r s =>
    simp only [Change.text, Change.old]
    split <;> simp only [List.filter_append, filter_marked_true old_minus, filter_marked_false old_plus, List.append_nil,
      List.nil_append, unmark_marked]

theorem text_new (before after : List Str) (c : Change) :
    unmark ((c.text before after).filter isNew) = replay before after [c] := by
  cases c with
  | noChange c => simp only [Change.text, filter_marked_true new_space, unmark_marked, replay, List.append_nil]
  | delete r s => simp [Change.text, filter_marked_false new_minus, replay, unmark]
  | insert s r => simp only [Change.text, filter_marked_true new_plus, unmark_marked, replay, List.append_nil]
  | replace r s =>
    simp only [Change.text, replay]
    split <;> simp only [List.filter_append, filter_marked_true new_plus, filter_marked_false new_minus, List.append_nil,
      List.nil_append, unmark_marked]

theorem text_removed (before after : List Str) (c : Change) :
    unmark ((c.text before after).filter isRemoved) = (reals [c]).flatMap fun c => cut before c.old.start c.old.fin := by
  cases c with
  | noChange c => simp [Change.text, filter_marked_false removed_space, reals, Change.isNoChange, unmark]
  | delete r s => simp [Change.text, filter_marked_true removed_minus, unmark_marked, reals, Change.isNoChange, Change.old]
  | insert s r => simp [Change.text, filter_marked_false removed_plus, reals, Change.isNoChange, Change.old, cut_self, unmark]
  | replace r s =>
    simp only [Change.text, reals, Change.isNoChange]
    split <;> simp [List.filter_append, filter_marked_true removed_minus, filter_marked_false removed_plus, unmark_marked,
      Change.old]

theorem text_added (before after : List Str) (c : Change) :
    unmark ((c.text before after).filter isAdded) = (reals [c]).flatMap fun c => cut after c.new.start c.new.fin := by
  cases c with
  | noChange c => simp [Change.text, filter_marked_false added_space, reals, Change.isNoChange, unmark]
  | delete r s => simp [Change.text, filter_marked_false added_minus, reals, Change.isNoChange, Change.new, cut_self, unmark]
  | insert s r => simp [Change.text, filter_marked_true added_plus, unmark_marked, reals, Change.isNoChange, Change.new]
  | replace r s =>
    simp only [Change.text, reals, Change.isNoChange]
    split <;> simp [List.filter_append, filter_marked_true added_plus, filter_marked_false added_minus, unmark_marked,
      Change.new]

theorem textOf_cons (before after : List Str) (c : Change) (cs : List Change) :
    textOf before after (c :: cs) = c.text before after ++ textOf before after cs := by
  simp [textOf]

theorem textOf_append (before after : List Str) (cs ds : List Change) :
    textOf before after (cs ++ ds) = textOf before after cs ++ textOf before after ds := by
  simp [textOf]

theorem replay_cons (before after : List Str) (c : Change) (cs : List Change) :
    replay before after (c :: cs) = replay before after [c] ++ replay before after cs := by
  cases c <;> simp [replay]

theorem reals_cons (c : Change) (cs : List Change) : reals (c :: cs) = reals [c] ++ reals cs := by
  rw [← reals_append]
  rfl

theorem mem_markedLines {m : Char} {l : List Str} {r : Range} {x : Str} (h : x ∈ markedLines m l r) :
    ∃ y ∈ l, x = m :: y := by
  obtain ⟨y, hy, rfl⟩ := List.mem_map.1 h
  exact ⟨y, List.mem_of_mem_drop (List.mem_of_mem_take hy), rfl⟩

/-- Every line is a line of one of the files with a marker. -/
theorem mem_text {before after : List Str} {c : Change} {x : Str} (h : x ∈ c.text before after) :
    ∃ m y, (m = ' ' ∨ m = '-' ∨ m = '+') ∧ (y ∈ before ∨ y ∈ after) ∧ x = m :: y := by
  have b : ∀ {m r}, (m = ' ' ∨ m = '-' ∨ m = '+') → x ∈ markedLines m before r →
      ∃ m y, (m = ' ' ∨ m = '-' ∨ m = '+') ∧ (y ∈ before ∨ y ∈ after) ∧ x = m :: y := by
    intro m r hm h
    obtain ⟨y, hy, rfl⟩ := mem_markedLines h
    exact ⟨m, y, hm, .inl hy, rfl⟩
  have a : ∀ {m r}, (m = ' ' ∨ m = '-' ∨ m = '+') → x ∈ markedLines m after r →
      ∃ m y, (m = ' ' ∨ m = '-' ∨ m = '+') ∧ (y ∈ before ∨ y ∈ after) ∧ x = m :: y := by
    intro m r hm h
    obtain ⟨y, hy, rfl⟩ := mem_markedLines h
    exact ⟨m, y, hm, .inr hy, rfl⟩
  cases c with
  | noChange c => exact b (by simp) h
  | delete r s => exact b (by simp) h
  | insert s r => exact a (by simp) h
  | replace r s =>
    simp only [Change.text] at h
    split at h <;> rcases List.mem_append.1 h with h | h
    · exact b (by simp) h
    · exact a (by simp) h
    · exact a (by simp) h
    · exact b (by simp) h

theorem mem_textOf {before after : List Str} {cs : List Change} {x : Str} (h : x ∈ textOf before after cs) :
    ∃ m y, (m = ' ' ∨ m = '-' ∨ m = '+') ∧ (y ∈ before ∨ y ∈ after) ∧ x = m :: y := by
  obtain ⟨c, -, hc⟩ := List.mem_flatMap.1 h
  exact mem_text hc

theorem textOf_body {before after : List Str} {cs : List Change} : ∀ l ∈ textOf before after cs, isBody l = true := by
  intro l hl
  obtain ⟨m, y, rfl | rfl | rfl, -, rfl⟩ := mem_textOf hl <;> rfl

theorem textOf_old {before after : List Str} {cs : List Change} {i j ie je : Nat} (h : Tiles i j cs ie je) :
    unmark ((textOf before after cs).filter isOld) = cut before i ie := by
  induction cs generalizing i j with
  | nil =>
    obtain ⟨rfl, rfl⟩ := h
    rw [cut_self]
    rfl
  | cons c cs ih =>
    obtain ⟨h1, h2, h3, h4, h5⟩ := h
    rw [textOf_cons, List.filter_append, unmark_append, ih h5, text_old, h1]
    exact cut_append _ (by omega) h5.le.1

theorem textOf_new {before after : List Str} {cs : List Change} :
    unmark ((textOf before after cs).filter isNew) = replay before after cs := by
  induction cs with
  | nil => rfl
  | cons c cs ih => rw [textOf_cons, List.filter_append, unmark_append, ih, text_new, ← replay_cons]

theorem textOf_removed {before after : List Str} {cs : List Change} :
    unmark ((textOf before after cs).filter isRemoved) = (reals cs).flatMap fun c => cut before c.old.start c.old.fin := by
  induction cs with
  | nil => rfl
  | cons c cs ih => rw [textOf_cons, List.filter_append, unmark_append, ih, text_removed, reals_cons c cs, List.flatMap_append]

theorem textOf_added {before after : List Str} {cs : List Change} :
    unmark ((textOf before after cs).filter isAdded) = (reals cs).flatMap fun c => cut after c.new.start c.new.fin := by
  induction cs with
  | nil => rfl
  | cons c cs ih => rw [textOf_cons, List.filter_append, unmark_append, ih, text_added, reals_cons c cs, List.flatMap_append]

/-! ## The clumps -/

/-- The end of a clump's lines. -/
def closed (body : List Str) : List Str :=
  if (body.getLast?.bind List.getLast?) = some '\n' then body else body ++ [['\n', '\\', '\n']]

theorem text_ne_nil {before after : List Str} {c : Change} (hp : c.Proper) (hr : c.isNoChange = false)
    (h1 : c.old.fin ≤ before.length) (h2 : c.new.fin ≤ after.length) : c.text before after ≠ [] := by
  have hm : ∀ {m : Char} {l : List Str} {r : Range}, r.start < r.fin → r.fin ≤ l.length → markedLines m l r ≠ [] := by
    intro m l r h1 h2 h
    have := congrArg List.length h
    simp only [markedLines, List.length_map, length_cut l _ _ h2, List.length_nil] at this
    omega
  cases c with
  | noChange c => cases hr
  | delete r s => exact hm hp h1
  | insert s r => exact hm hp h2
  | replace r s =>
    simp only [Change.text]
    have := hm (m := '-') hp.1 h1
    split <;> simp [this]

theorem Tiles.mem_le {i j ie je : Nat} {cs : List Change} (h : Tiles i j cs ie je) {c : Change} (hc : c ∈ cs) :
    i ≤ c.old.start ∧ c.old.start ≤ c.old.fin ∧ c.old.fin ≤ ie ∧ j ≤ c.new.start ∧ c.new.start ≤ c.new.fin ∧ c.new.fin ≤ je := by
  induction cs generalizing i j with
  | nil => cases hc
  | cons d cs ih =>
    obtain ⟨h1, h2, h3, h4, h5⟩ := h
    have := h5.le
    rcases List.mem_cons.1 hc with rfl | hc
    · omega
    · have := ih h5 hc
      omega

theorem textOf_ne_nil {before after : List Str} {cs : List Change} {i j ie je : Nat} (h : Tiles i j cs ie je)
    (hie : ie ≤ before.length) (hje : je ≤ after.length) (hp : ∀ c ∈ cs, c.isNoChange = false → c.Proper) (hr : reals cs ≠ []) :
    textOf before after cs ≠ [] := by
  obtain ⟨c, hc⟩ := List.exists_mem_of_ne_nil _ hr
  obtain ⟨hc, hn⟩ := List.mem_filter.1 hc
  simp only [Bool.not_eq_true'] at hn
  have hle := h.mem_le hc
  have := text_ne_nil (before := before) (after := after) (hp c hc hn) hn (by omega) (by omega)
  intro he
  apply this
  rw [List.eq_nil_iff_forall_not_mem] at he ⊢
  intro x hx
  exact he x (List.mem_flatMap.2 ⟨c, hc, hx⟩)

/-- The real changes of a clump are changes. -/
theorem IsStretch.real_mem {ctx : Nat} {changes clump : List Change} (h : IsStretch ctx changes clump) {c : Change}
    (hc : c ∈ clump) (hn : c.isNoChange = false) : c ∈ changes := by
  obtain ⟨init, lead, mid, trail, tail, rfl, rfl, -, -, -, -, hl, ht⟩ := h
  rcases List.mem_append.1 hc with hc | hc
  · rcases List.mem_append.1 hc with hc | hc
    · rcases hl with ⟨-, rfl⟩ | ⟨init', m, -, -, rfl⟩
      · cases hc
      · rw [List.mem_singleton] at hc
        subst hc
        cases hn
    · simp [hc]
  · rcases ht with ⟨-, rfl⟩ | ⟨m, tail', -, -, rfl⟩
    · cases hc
    · rw [List.mem_singleton] at hc
      subst hc
      cases hn

/-- The unchanged blocks of a clump are parts of unchanged blocks. -/
theorem IsStretch.block_mem {ctx : Nat} {changes clump : List Change} (h : IsStretch ctx changes clump) {g : CommonSubsequence}
    (hc : .noChange g ∈ clump) : ∃ c, .noChange c ∈ changes ∧ SubBlock g c := by
  obtain ⟨init, lead, mid, trail, tail, rfl, rfl, -, -, -, -, hl, ht⟩ := h
  rcases List.mem_append.1 hc with hc | hc
  · rcases List.mem_append.1 hc with hc | hc
    · rcases hl with ⟨-, rfl⟩ | ⟨init', m, rfl, -, rfl⟩
      · cases hc
      · rw [List.mem_singleton] at hc
        injection hc with hc
        subst hc
        refine ⟨m, by simp, ?_⟩
        unfold SubBlock
        dsimp only
        omega
    · exact ⟨g, by simp [hc], by unfold SubBlock; omega⟩
  · rcases ht with ⟨-, rfl⟩ | ⟨m, tail', rfl, -, rfl⟩
    · cases hc
    · rw [List.mem_singleton] at hc
      injection hc with hc
      subst hc
      refine ⟨m, by simp, ?_⟩
      unfold SubBlock
      dsimp only
      omega

theorem unifiedClumpText_eq {p : Profile} {before after : List Str} {cc : ChangeClump} {i j ie je : Nat}
    (h : Tiles i j cc.changes ie je) (hie : ie ≤ before.length) (hje : je ≤ after.length) (hne : textOf before after cc.changes ≠ []) :
    unifiedClumpText p before after cc = .ok ⟨cc.header.display, closed (textOf before after cc.changes)⟩ := by
  have hc : cc.changes ≠ [] := by
    intro e
    rw [e] at hne
    exact hne rfl
  have hr := h.ranges hc
  have hr1 : cc.starts.1 = i ∧ cc.ends.1 = ie ∧ cc.starts.2 = j ∧ cc.ends.2 = je := by
    simp only [ChangeClump.ranges, Prod.mk.injEq, Range.mk.injEq] at hr
    exact ⟨hr.1.1, hr.1.2, hr.2.1, hr.2.2⟩
  have hle := h.le
  unfold unifiedClumpText
  rw [usub_ok (by omega), usub_ok (by omega), changesLines_eq h hie hje]
  simp only [Outcome.ok_bind]
  have hl := List.getLast?_eq_some_getLast hne
  unfold closed
  rw [hl]
  simp only [Option.bind_some]
  split <;> rfl

theorem unifiedClumpTexts_eq {p : Profile} {before after : List Str} {ccs : List ChangeClump}
    (h : ∀ cc ∈ ccs, unifiedClumpText p before after cc = .ok ⟨cc.header.display, closed (textOf before after cc.changes)⟩) :
    unifiedClumpTexts p before after ccs =
      .ok (ccs.map fun cc => ⟨cc.header.display, closed (textOf before after cc.changes)⟩) := by
  induction ccs with
  | nil => rfl
  | cons cc ccs ih =>
    rw [unifiedClumpTexts, h cc (by simp), ih (fun c hc => h c (by simp [hc]))]
    rfl

/-- What is known of every clump of two texts. -/
structure TextClumpFacts (before after : List Str) (ctx : Nat) (cc : ChangeClump) : Prop where
  tiles : Tiles cc.ranges.1.start cc.ranges.2.start cc.changes cc.ranges.1.fin cc.ranges.2.fin
  inside1 : cc.ranges.1.fin ≤ before.length
  inside2 : cc.ranges.2.fin ≤ after.length
  proper : ∀ c ∈ cc.changes, c.isNoChange = false → c.Proper
  nonempty : textOf before after cc.changes ≠ []
  stretch : ∃ changes, IsStretch ctx changes cc.changes ∧ Alternating changes ∧
    (NoIsland before after → ∀ c, .noChange c ∈ changes → cut before c.b (c.b + c.n) = cut after c.a (c.a + c.n))

theorem unifiedClumps_eq (p : Profile) (before after : List Str) (ctx : Nat) :
    ∃ changes ccs, changesOf p before after = .ok changes ∧ changeClumps ctx changes = .ok ccs ∧
      (∀ cc ∈ ccs, TextClumpFacts before after ctx cc) ∧
      unifiedClumps p before after ctx = .ok (ccs.map fun cc => ⟨cc.header.display, closed (textOf before after cc.changes)⟩) := by
  obtain ⟨changes, ccs, e1, e2, e3, e4, e5⟩ := diffClumps_spec p before after ctx
  obtain ⟨hp, halt⟩ := changes_proper e1
  have facts : ∀ cc ∈ ccs, TextClumpFacts before after ctx cc := by
    intro cc hcc
    have hs := changeClumps_stretch ctx changes halt ccs e2 cc hcc
    obtain ⟨i, j, ie, je, ht⟩ := e3.cover.mem cc hcc
    have hin := e4.inside.2.2 cc.ranges (List.mem_map_of_mem hcc)
    have hr := ht.ranges (e3.each cc hcc).ne_nil
    have ht' : Tiles cc.ranges.1.start cc.ranges.2.start cc.changes cc.ranges.1.fin cc.ranges.2.fin := by
      rw [hr]; exact ht
    have hpr : ∀ c ∈ cc.changes, c.isNoChange = false → c.Proper := fun c hc hn => hp c (hs.real_mem hc hn)
    exact ⟨ht', hin.2.1, hin.2.2.2, hpr, textOf_ne_nil ht' hin.2.1 hin.2.2.2 hpr (e3.each cc hcc).real, changes, hs, halt,
      fun hi => changes_noIsland p before after changes hi e1⟩
  refine ⟨changes, ccs, e1, e2, facts, ?_⟩
  unfold unifiedClumps
  rw [e1]
  simp only [Outcome.ok_bind]
  rw [e2]
  simp only [Outcome.ok_bind]
  exact unifiedClumpTexts_eq fun cc hcc =>
    unifiedClumpText_eq (facts cc hcc).tiles (facts cc hcc).inside1 (facts cc hcc).inside2 (facts cc hcc).nonempty

theorem TextClumpFacts.describes {before after : List Str} {ctx : Nat} {cc : ChangeClump}
    (h : TextClumpFacts before after ctx cc) : Describes before after cc (textOf before after cc.changes) :=
  ⟨textOf_body, textOf_old h.tiles, textOf_new, textOf_removed, textOf_added⟩

theorem TextClumpFacts.replayed {before after : List Str} {ctx : Nat} {cc : ChangeClump}
    (h : TextClumpFacts before after ctx cc) (hi : NoIsland before after) :
    replay before after cc.changes = cut after cc.ranges.2.start cc.ranges.2.fin := by
  rw [replay_iff before after cc.changes _ _ _ _ h.tiles h.inside1 h.inside2]
  intro g hg
  obtain ⟨changes, hs, -, hc⟩ := h.stretch
  obtain ⟨c, hc1, hc2⟩ := hs.block_mem hg
  exact cut_of_subBlock hc2 (hc hi c hc1)

end PwDiff
