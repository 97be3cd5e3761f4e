import Verif.Props.InPlaceResult
import Verif.Props.History

/-! # C156: byte patches that replace bytes in place, in any order -/

namespace PwDiff

/-- The patches applied one after the other to `l` give `out`, and all succeed. -/
def BytePatchesGive (p : Profile) : List (List (DiffClump UInt8)) → List UInt8 → List UInt8 → Prop
  | [], l, out => out = l
  | cs :: ps, l, out => ∃ m, (byteApplyInto p cs l false).run = (.ok (), m) ∧ BytePatchesGive p ps m out

/-- No byte is touched by both. -/
def TouchApart (cs ds : List (DiffClump UInt8)) : Prop := ∀ c ∈ cs, ∀ d ∈ ds, ∀ i, ¬ (c.Covers i ∧ d.Covers i)

theorem TouchApart.symm {cs ds : List (DiffClump UInt8)} (h : TouchApart cs ds) : TouchApart ds cs := fun d hd c hc i hi => h c hc d hd i ⟨hi.2, hi.1⟩

/-- The patch replaces bytes in place, and is not too large for a file of this length. -/
def InPlacePatch (n : Nat) (cs : List (DiffClump UInt8)) : Prop := (∀ c ∈ cs, c.InPlace) ∧ InRow cs ∧ n + weight cs < wordSize

theorem InPlacePatch.run {l : List UInt8} {cs : List (DiffClump UInt8)} (h : InPlacePatch l.length cs) (p : Profile) :
    ∃ m, (byteApplyInto p cs l false).run = (.ok (), m) ∧ m.length = l.length := by
  obtain ⟨m, r, hm⟩ := C154_exact p cs h.1 h.2.1 l h.2.2
  exact ⟨m, r, hm.1⟩

theorem bytePatches_give (p : Profile) (ps : List (List (DiffClump UInt8))) (l : List UInt8) (h : ∀ cs ∈ ps, InPlacePatch l.length cs) :
    ∃ out, BytePatchesGive p ps l out ∧ out.length = l.length := by
  induction ps generalizing l with
  | nil => exact ⟨l, rfl, rfl⟩
  | cons cs ps ih =>
    obtain ⟨m, r, hm⟩ := (h cs List.mem_cons_self).run p
    obtain ⟨out, ho, hl⟩ := ih m fun ds hd => by rw [hm]; exact h ds (List.mem_cons_of_mem _ hd)
    exact ⟨out, ⟨m, r, ho⟩, hl.trans hm⟩

theorem BytePatchesGive.unique {p : Profile} {ps : List (List (DiffClump UInt8))} {l a b : List UInt8} (ha : BytePatchesGive p ps l a)
    (hb : BytePatchesGive p ps l b) : a = b := by
  induction ps generalizing l with
  | nil => exact ha.trans hb.symm
  | cons cs ps ih =>
    obtain ⟨m, r1, r2⟩ := ha
    obtain ⟨m', r3, r4⟩ := hb
    obtain rfl : m = m' := congrArg Prod.snd (r1.symm.trans r3)
    exact ih r2 r4

/-- Any number of patches no two of which touch the same byte, and any file whatever: in whatever order they are applied, all succeed and
the result is the same. -/
theorem C156_order (p : Profile) (ps qs : List (List (DiffClump UInt8))) (hperm : ps.Perm qs) (l : List UInt8)
    (h : ∀ cs ∈ ps, InPlacePatch l.length cs) (ha : ps.Pairwise TouchApart) :
    ∃ out, out.length = l.length ∧ BytePatchesGive p ps l out ∧ BytePatchesGive p qs l out := by
  induction hperm generalizing l with
  | nil => exact ⟨l, rfl, rfl, rfl⟩
  | cons cs _ ih =>
    obtain ⟨m, r, hm⟩ := (h cs List.mem_cons_self).run p
    obtain ⟨out, h1, h2, h3⟩ := ih m (fun ds hd => by rw [hm]; exact h ds (List.mem_cons_of_mem _ hd)) (List.pairwise_cons.1 ha).2
    exact ⟨out, h1.trans hm, ⟨m, r, h2⟩, m, r, h3⟩
  | swap cs ds ps =>
    obtain ⟨a1, a2⟩ := List.pairwise_cons.1 ha
    obtain ⟨hd1, hd2, hd3⟩ := h ds List.mem_cons_self
    obtain ⟨hc1, hc2, hc3⟩ := h cs (List.mem_cons_of_mem _ List.mem_cons_self)
    obtain ⟨m, m', n, r1, r2, r3, r4⟩ := C154_either p ds cs hd1 hc1 hd2 hc2 (a1 cs List.mem_cons_self) l hd3 hc3
    have hm : m.length = l.length := by
      obtain ⟨x, rx, hx⟩ := (h ds List.mem_cons_self).run p
      obtain rfl : m = x := congrArg Prod.snd (r1.symm.trans rx)
      exact hx
    have hn : n.length = l.length := by
      obtain ⟨x, rx, hx⟩ := InPlacePatch.run (l := m) (cs := cs) (by rw [hm]; exact ⟨hc1, hc2, hc3⟩) p
      obtain rfl : n = x := congrArg Prod.snd (r2.symm.trans rx)
      exact hx.trans hm
    obtain ⟨out, ho, hl⟩ := bytePatches_give p ps n fun es he => by
      rw [hn]
      exact h es (List.mem_cons_of_mem _ (List.mem_cons_of_mem _ he))
    exact ⟨out, hl.trans hn, ⟨m, r1, n, r2, ho⟩, m', r3, n, r4, ho⟩
  | trans h1 h2 ih1 ih2 =>
    obtain ⟨out, g1, g2, g3⟩ := ih1 l h ha
    obtain ⟨out', g4, g5, g6⟩ := ih2 l (fun cs hc => h cs (h1.mem_iff.2 hc)) (ha.perm h1 fun h => h.symm)
    obtain rfl := g3.unique g5
    exact ⟨out, g1, g2, g6⟩

/-- Three patches, the clumps of two of which are between and behind those of the third. -/
def threeInPlace : List (List (DiffClump UInt8)) :=
  [inPlaceClumps, [⟨(0, 0), ⟨3, [4, 5]⟩, ⟨3, [5, 4]⟩⟩], [⟨(0, 0), ⟨9, [9]⟩, ⟨9, [8]⟩⟩]]

theorem threeInPlace_patch : ∀ cs ∈ threeInPlace, InPlacePatch 10 cs := by
  unfold InPlacePatch InRow
  decide +kernel

theorem threeInPlace_apart : threeInPlace.Pairwise TouchApart := by
  have key : threeInPlace.Pairwise fun cs ds => ∀ c ∈ cs, ∀ d ∈ ds, c.before.start + c.before.items.length ≤ d.before.start ∨
      d.before.start + d.before.items.length ≤ c.before.start := by decide
  refine key.imp fun h c hc d hd i hi => ?_
  obtain ⟨⟨h1, h2⟩, h3, h4⟩ := hi
  rcases h c hc d hd with h | h <;> omega

/-- In all orders, with all files of ten bytes. -/
example (p : Profile) (qs : List (List (DiffClump UInt8))) (h : threeInPlace.Perm qs) (l : List UInt8) (hl : l.length = 10) :=
  C156_order p threeInPlace qs h l (by rw [hl]; exact threeInPlace_patch) threeInPlace_apart

theorem bytePatches_program (q : Profile) (temp target : Path) (patch : Nat → Path) (d : Nat → ByteChangeDiff) (content : Nat → List UInt8)
    (ks : List Nat) (w : World) (hf : w.faults = [])
    (hp : ∀ k ∈ ks, w.fs.node (w.fs.entry (patch k)) = some (.file (content k)) ∧
      Diff.fromReader ⟨content k, false⟩ = .ok (.byteChange (d k)) ∧ (d k).beforePath = target ∧ w.fs.entry (patch k) ≠ w.fs.entry target)
    (hfree : w.fs.node (w.fs.entry temp) = none) (hnt : w.fs.entry temp ≠ w.fs.entry target) (l out : List UInt8)
    (h : BytePatchesGive q (ks.map fun k => (d k).clumps) l out) :
    RunsLeave q temp patch (ks.map fun k => (k, false)) { w with fs := w.fs.set (w.fs.entry target) (some (.file l)) }
      { w with fs := w.fs.set (w.fs.entry target) (some (.file out)) } := by
  induction ks generalizing l with
  | nil => rw [show out = l from h]; rfl
  | cons k ks ih =>
    obtain ⟨m, r1, r2⟩ := h
    obtain ⟨h1, h2, h3, h4⟩ := hp k List.mem_cons_self
    refine ⟨_, ?_, ih (fun j hj => hp j (List.mem_cons_of_mem _ hj)) m r2⟩
    have := C46_normal q temp (patch k) target false { w with fs := w.fs.set (w.fs.entry target) (some (.file l)) }
      (.byteChange (d k)) ⟨⟨content k, false⟩, FS.contentAt_of_file (by simp [h4, h1]), h2⟩ (congrArg some h3) hf (by simp [hnt, hfree])
      (FS.contentAt_of_file (c := l) (by simp)) r1
    rw [this]
    simp only [FS.set_entry, FS.set_set]

/-- The same of `pw_patch`: in whatever order the patches are applied, all runs end with exit status 0 and leave the same. -/
theorem C156_program (q : Profile) (temp target : Path) (patch : Nat → Path) (d : Nat → ByteChangeDiff) (content : Nat → List UInt8)
    (ks ks' : List Nat) (hperm : ks.Perm ks') (w : World) (hf : w.faults = [])
    (hp : ∀ k ∈ ks, w.fs.node (w.fs.entry (patch k)) = some (.file (content k)) ∧
      Diff.fromReader ⟨content k, false⟩ = .ok (.byteChange (d k)) ∧ (d k).beforePath = target ∧ w.fs.entry (patch k) ≠ w.fs.entry target)
    (hfree : w.fs.node (w.fs.entry temp) = none) (l : List UInt8) (hold : w.fs.node (w.fs.entry target) = some (.file l))
    (h : ∀ k ∈ ks, InPlacePatch l.length (d k).clumps) (ha : ks.Pairwise fun j k => TouchApart (d j).clumps (d k).clumps) :
    ∃ out : List UInt8, out.length = l.length ∧
      RunsLeave q temp patch (ks.map fun k => (k, false)) w { w with fs := w.fs.set (w.fs.entry target) (some (.file out)) } ∧
      RunsLeave q temp patch (ks'.map fun k => (k, false)) w { w with fs := w.fs.set (w.fs.entry target) (some (.file out)) } := by
  have hnt : w.fs.entry temp ≠ w.fs.entry target := by
    intro e
    rw [e, hold] at hfree
    cases hfree
  obtain ⟨out, h1, h2, h3⟩ := C156_order q (ks.map fun k => (d k).clumps) (ks'.map fun k => (d k).clumps) (hperm.map _) l
    (fun cs hc => by
      obtain ⟨k, hk, rfl⟩ := List.mem_map.1 hc
      exact h k hk) (List.pairwise_map.2 ha)
  have g1 := bytePatches_program q temp target patch d content ks w hf hp hfree hnt l out h2
  have g2 := bytePatches_program q temp target patch d content ks' w hf (fun k hk => hp k (hperm.mem_iff.2 hk)) hfree hnt l out h3
  rw [FS.set_same _ hold] at g1 g2
  exact ⟨out, h1, g1, g2⟩

/-- The situation: `A` is any file of ten bytes, and `C` and `D` are the first two of these patches. -/
example (q : Profile) (l : List UInt8) (hl : l.length = 10) (ks : List Nat) (hk : [0, 1].Perm ks) :
    ∃ w v : World, w.fs.contentAt [65] = some ⟨l, false⟩ ∧
      RunsLeave q [84] (fun k => [67 + k.toUInt8]) ([0, 1].map fun k => (k, false)) w v ∧
      RunsLeave q [84] (fun k => [67 + k.toUInt8]) (ks.map fun k => (k, false)) w v := by
  obtain ⟨e1, e2, e3, e4, e5, e6, e7, e8, e9, e10, e11⟩ := FS.ofFiles_patches l
    (Diff.byteChange ⟨[65], [66], false, inPlaceClumps⟩).fileContent
    (Diff.byteChange ⟨[65], [66], false, [⟨(0, 0), ⟨3, [4, 5]⟩, ⟨3, [5, 4]⟩⟩]⟩).fileContent
  generalize FS.ofFiles [([65], _), ([67], _), ([68], _)] = fs at *
  have read : ∀ (path : Path) (cs : List (DiffClump UInt8)), (∀ c ∈ cs, c.InRange) →
      fs.contentAt path = some ⟨(Diff.byteChange ⟨[65], [66], false, cs⟩).fileContent, false⟩ →
      Diff.fromReader ⟨(Diff.byteChange ⟨[65], [66], false, cs⟩).fileContent, false⟩ = .ok (.byteChange ⟨[65], [66], false, cs⟩) := by
    intro path cs hr hc
    have : HoldsDiff fs path (.byteChange ⟨[65], [66], false, cs⟩) := by
      refine holdsDiff_of_file hr ?_ hc
      intro path h
      simp only [Diff.paths, List.mem_cons, List.not_mem_nil, or_false] at h
      rcases h with rfl | rfl
      · exact ⟨['A'], by decide⟩
      · exact ⟨['B'], by decide⟩
    obtain ⟨r, hr1, hr2⟩ := this
    obtain rfl := Option.some.inj (hc.symm.trans hr1)
    exact hr2
  let cl : Nat → List (DiffClump UInt8) := fun k => if k = 0 then inPlaceClumps else [⟨(0, 0), ⟨3, [4, 5]⟩, ⟨3, [5, 4]⟩⟩]
  obtain ⟨out, -, g1, g2⟩ := C156_program q [84] [65] (fun k => [67 + k.toUInt8]) (fun k => ⟨[65], [66], false, cl k⟩)
    (fun k => (Diff.byteChange ⟨[65], [66], false, cl k⟩).fileContent) [0, 1] ks hk ⟨fs, [], []⟩ rfl (by
      intro k hk
      simp only [List.mem_cons, List.not_mem_nil, or_false] at hk
      rcases hk with rfl | rfl
      · refine ⟨?_, read [67] inPlaceClumps ?_ e10, rfl, ?_⟩
        · show fs.node (fs.entry [67]) = _
          rw [e2, e6]
          rfl
        · intro c hc
          simp [inPlaceClumps] at hc
          rcases hc with rfl | rfl <;> simp [DiffClump.InRange, wordSize]
        · show fs.entry [67] ≠ fs.entry [65]
          rw [e1, e2]
          decide
      · refine ⟨?_, read [68] [⟨(0, 0), ⟨3, [4, 5]⟩, ⟨3, [5, 4]⟩⟩] ?_ e11, rfl, ?_⟩
        · show fs.node (fs.entry [68]) = _
          rw [e3, e7]
          rfl
        · intro c hc
          simp at hc
          subst hc
          simp [DiffClump.InRange, wordSize]
        · show fs.entry [68] ≠ fs.entry [65]
          rw [e1, e3]
          decide) (by rw [e4, e8]) l (by rw [e1, e5]) (by
      intro k hk
      rw [hl]
      simp only [List.mem_cons, List.not_mem_nil, or_false] at hk
      rcases hk with rfl | rfl
      · exact threeInPlace_patch _ (by decide)
      · exact threeInPlace_patch _ (by decide)) (by
      refine List.pairwise_cons.2 ⟨fun k hk => ?_, List.pairwise_singleton _ _⟩
      obtain rfl := List.mem_singleton.1 hk
      exact (List.pairwise_cons.1 threeInPlace_apart).1 _ (by decide))
  exact ⟨_, _, e9, g1, g2⟩

/-- What one may expect: the same of patches that touch the same bytes. -/
def C156_statement : Prop :=
  ∀ (p : Profile) (cs ds : List (DiffClump UInt8)) (l : List UInt8), InPlacePatch l.length cs → InPlacePatch l.length ds →
    ∃ out, BytePatchesGive p [cs, ds] l out ∧ BytePatchesGive p [ds, cs] l out

/-- That is not so, even if they touch one byte each: the patch from 1 to 2 and the one from 2 to 3. -/
theorem C156_refuted : ¬ C156_statement := by
  intro h
  obtain ⟨out, ⟨m, r1, m', r2, e'⟩, n, r3, n', r4, e⟩ := h .debug [⟨(0, 0), ⟨0, [1]⟩, ⟨0, [2]⟩⟩] [⟨(0, 0), ⟨0, [2]⟩, ⟨0, [3]⟩⟩] [1]
    (by unfold InPlacePatch InRow; decide +kernel) (by unfold InPlacePatch InRow; decide +kernel)
  have e1 : (byteApplyInto .debug [⟨(0, 0), ⟨0, [1]⟩, ⟨0, [2]⟩⟩] [1] false).run = (.ok (), [2]) := by decide +kernel
  have e2 : (byteApplyInto .debug [⟨(0, 0), ⟨0, [2]⟩, ⟨0, [3]⟩⟩] [2] false).run = (.ok (), [3]) := by decide +kernel
  have e3 : (byteApplyInto .debug [⟨(0, 0), ⟨0, [2]⟩, ⟨0, [3]⟩⟩] [1] false).run = (.ok (), [1]) := by decide +kernel
  obtain rfl : [2] = m := congrArg Prod.snd (e1.symm.trans r1)
  obtain rfl : [3] = m' := congrArg Prod.snd (e2.symm.trans r2)
  obtain rfl : [1] = n := congrArg Prod.snd (e3.symm.trans r3)
  obtain rfl : [2] = n' := congrArg Prod.snd (e1.symm.trans r4)
  rw [e'] at e
  revert e
  simp [BytePatchesGive]

end PwDiff
