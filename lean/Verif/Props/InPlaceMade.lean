import Verif.Props.InPlaceOrder

/-! # C157: generated byte patches that replace bytes in place -/

namespace PwDiff

theorem Diffed.samePlace {skip : CommonSubsequence → Prop} {before after : List UInt8} {i ie je : Nat} {cs : List (DiffClump UInt8)}
    (h : Diffed skip before after i i cs ie je) (hl : ∀ c ∈ cs, c.after.items.length = c.before.items.length) :
    (∀ c ∈ cs, c.InPlace) ∧ InRow cs ∧ ie = je := by
  induction cs generalizing i with
  | nil =>
    obtain ⟨n, h1, h2, -⟩ := h
    exact ⟨by simp, List.Pairwise.nil, by omega⟩
  | cons c cs ih =>
    obtain ⟨⟨n, h1, h2, -⟩, h3, h4, h5⟩ := h
    have hc := hl c List.mem_cons_self
    have e : c.after.start = c.before.start := by omega
    rw [e, hc] at h5
    obtain ⟨g1, g2, g3⟩ := ih h5 fun d hd => hl d (List.mem_cons_of_mem _ hd)
    refine ⟨fun d hd => ?_, List.pairwise_cons.2 ⟨fun d hd => (h5.bounds.2.2.2 d hd).1, g2⟩, g3⟩
    rcases List.mem_cons.1 hd with rfl | hd
    · exact ⟨e, hc⟩
    · exact g1 d hd

theorem Diffed.oldThere {skip : CommonSubsequence → Prop} {before after : List UInt8} {i j : Nat} {cs : List (DiffClump UInt8)}
    (h : Diffed skip before after i j cs before.length after.length) (c : DiffClump UInt8) (hc : c ∈ cs) :
    StandsAt c.before.items before c.before.start := by
  induction cs generalizing i j with
  | nil => cases hc
  | cons d cs ih =>
    have hb := h.bounds.2.2.2 c hc
    obtain ⟨-, h3, -, h5⟩ := h
    rcases List.mem_cons.1 hc with rfl | hc
    · rw [standsAt_nat]
      exact ⟨hb.2.2.1, h3.symm⟩
    · exact ih h5 hc

/-- The clumps of a patch made of two byte sequences, each of which has as many new bytes as old ones. They replace bytes in place and
follow each other, so that the files have the same length and C154, C155 and C156 hold of the patch. -/
theorem C157_made (p : Profile) (before after : List UInt8) (context : Nat) (hctx : context ≤ 255) (cs : List (DiffClump UInt8))
    (h : diffClumps p before after context = .ok cs) (hl : ∀ c ∈ cs, c.after.items.length = c.before.items.length) (n : Nat)
    (hn : n + before.length + after.length < wordSize) : before.length = after.length ∧ InPlacePatch n cs := by
  obtain ⟨hd, -⟩ := diffClumps_full hctx h
  have hw := hd.weight
  obtain ⟨skip, hd⟩ := hd.diffed
  obtain ⟨h1, h2, h3⟩ := hd.samePlace hl
  exact ⟨h3, h1, h2, by omega⟩

/-- With context: if such a patch makes the new file of the old one (see C40), the files of which it makes the new one are exactly those
that are like the old one wherever no clump is and have at the place of each clump the old bytes or the new ones. -/
theorem C157_whole (p q : Profile) (before after : List UInt8) (context : Nat) (h1 : 1 ≤ context) (hctx : context ≤ 255)
    (hne : before ≠ []) (cs : List (DiffClump UInt8)) (h : diffClumps p before after context = .ok cs)
    (hl : ∀ c ∈ cs, c.after.items.length = c.before.items.length) (hr : (byteApplyInto q cs before false).run = (.ok (), after))
    (l : List UInt8) (hsz : 2 * before.length + after.length < wordSize) (hn : l.length + before.length + after.length < wordSize) :
    (byteApplyInto q cs l false).run = (.ok (), after) ↔
      l.length = before.length ∧ (∀ i, (∀ c ∈ cs, ¬ c.Covers i) → l[i]? = before[i]?) ∧ ∀ c ∈ cs, FoundIn l c.before ∨ FoundIn l c.after := by
  obtain ⟨-, g1, g2, g3⟩ := C157_made p before after context hctx cs h hl l.length hn
  obtain ⟨-, -, -, g4⟩ := C157_made p before after context hctx cs h hl before.length (by omega)
  refine C155_whole q q cs g1 g2 before after l g4 g3 (fun c hc => ?_) hr
  obtain ⟨hd, -⟩ := diffClumps_full hctx h
  obtain ⟨skip, hd⟩ := hd.diffed
  exact ⟨(diffClumps_starts h1 h c hc).1 hne, hd.oldThere c hc⟩

/-- In particular if no single differing pair of bytes stands between two equal pairs. -/
theorem C157_sure (p q : Profile) (before after : List UInt8) (context : Nat) (h1 : 1 ≤ context) (hctx : context ≤ 255)
    (hne : before ≠ []) (hi : NoIsland before after) (cs : List (DiffClump UInt8)) (h : diffClumps p before after context = .ok cs)
    (hl : ∀ c ∈ cs, c.after.items.length = c.before.items.length) (l : List UInt8)
    (hsz : 2 * before.length + after.length < wordSize) (hn : l.length + before.length + after.length < wordSize) :
    (byteApplyInto q cs l false).run = (.ok (), after) ↔
      l.length = before.length ∧ (∀ i, (∀ c ∈ cs, ¬ c.Covers i) → l[i]? = before[i]?) ∧
        ∀ c ∈ cs, FoundIn l c.before ∨ FoundIn l c.after := by
  obtain ⟨bytes, r, -, -, hb⟩ := C40_partial p q before after context h1 hctx hne hsz cs h
  rw [hb hi] at r
  exact C157_whole p q before after context h1 hctx hne cs h hl r l hsz hn

example (n : Nat) (hn : n + 18 < wordSize) : InPlacePatch n inPlaceClumps :=
  (C157_made .debug [1, 2, 3, 4, 5, 6, 7, 7, 8] [1, 9, 3, 4, 5, 6, 0, 0, 8] 1 (by decide) inPlaceClumps inPlaceClumps_diff (by decide) n hn).2

/-- All files that become the new one. -/
example (q : Profile) (l : List UInt8) (hn : l.length + 18 < wordSize) :=
  C157_whole .debug q [1, 2, 3, 4, 5, 6, 7, 7, 8] [1, 9, 3, 4, 5, 6, 0, 0, 8] 1 (by decide) (by decide) (by decide) inPlaceClumps
    inPlaceClumps_diff (by decide) (by cases q <;> decide +kernel) l (by decide +kernel) hn

/-- A patch without islands. -/
example (q : Profile) (l : List UInt8) (hn : l.length + 12 < wordSize) :=
  C157_sure .debug q [1, 2, 3, 4, 5, 6] [1, 2, 9, 8, 5, 6] 1 (by decide) (by decide) (by decide) (noIsland_of_check (by
    decide +kernel)) [⟨(1, 1), ⟨1, [2, 3, 4, 5]⟩, ⟨1, [2, 9, 8, 5]⟩⟩]
    (by decide +kernel) (by decide) l (by decide +kernel) hn

/-- What one may expect: two files of the same length give such a patch. -/
def C157_statement : Prop :=
  ∀ (p : Profile) (before after : List UInt8) (context : Nat) (cs : List (DiffClump UInt8)), context ≤ 255 → before.length = after.length →
    diffClumps p before after context = .ok cs → ∀ c ∈ cs, c.InPlace

/-- That is not so: bytes that were moved. -/
theorem C157_refuted : ¬ C157_statement := by
  intro h
  have := h .debug [1, 2, 3, 4, 5, 6] [2, 3, 4, 5, 6, 1] 0 [⟨(0, 0), ⟨0, [1]⟩, ⟨0, []⟩⟩, ⟨(0, 0), ⟨6, []⟩, ⟨5, [1]⟩⟩] (by decide) rfl (by decide +kernel)
  revert this
  decide

end PwDiff
