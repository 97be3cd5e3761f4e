import Verif.Props.InPlaceMade

/-! # C158: byte patches that replace bytes in place, applied and taken back in any order -/

namespace PwDiff

/-- The patches taken back one after the other, from `l`, give `out`, and all succeed. -/
def BytePatchesBack (p : Profile) : List (List (DiffClump UInt8)) → List UInt8 → List UInt8 → Prop
  | [], l, out => out = l
  | cs :: ps, l, out => ∃ m, (byteApplyInto p cs l true).run = (.ok (), m) ∧ BytePatchesBack p ps m out

theorem bytePatchesBack_swap (p : Profile) (ps : List (List (DiffClump UInt8))) (l out : List UInt8) :
    BytePatchesGive p (ps.map fun cs => cs.map DiffClump.swap) l out ↔ BytePatchesBack p ps l out := by
  induction ps generalizing l with
  | nil => exact Iff.rfl
  | cons cs ps ih =>
    simp only [List.map_cons, BytePatchesGive, BytePatchesBack, byteApply_swap, Bool.not_false, ih]

theorem BytePatchesBack.snoc {p : Profile} {ps : List (List (DiffClump UInt8))} {cs : List (DiffClump UInt8)} {l m out : List UInt8}
    (h : BytePatchesBack p ps l m) (hc : (byteApplyInto p cs m true).run = (.ok (), out)) : BytePatchesBack p (ps ++ [cs]) l out := by
  induction ps generalizing l with
  | nil =>
    obtain rfl : m = l := h
    exact ⟨out, hc, rfl⟩
  | cons ds ps ih =>
    obtain ⟨n, r1, r2⟩ := h
    exact ⟨n, r1, ih r2⟩

/-- No clump of the patch has its new bytes in the file and not the old ones. -/
def NotThereYet (l : List UInt8) (cs : List (DiffClump UInt8)) : Prop := ∀ c ∈ cs, FoundIn l c.after → FoundIn l c.before

theorem bytePatches_undone (p : Profile) (ps : List (List (DiffClump UInt8))) (l : List UInt8) (h : ∀ cs ∈ ps, InPlacePatch l.length cs)
    (ha : ps.Pairwise TouchApart) (hn : ∀ cs ∈ ps, NotThereYet l cs) :
    ∃ out, out.length = l.length ∧ BytePatchesGive p ps l out ∧ BytePatchesBack p ps.reverse out l := by
  induction ps generalizing l with
  | nil => exact ⟨l, rfl, rfl, rfl⟩
  | cons cs ps ih =>
    obtain ⟨a1, a2⟩ := List.pairwise_cons.1 ha
    obtain ⟨h1, h2, h3⟩ := h cs List.mem_cons_self
    obtain ⟨m, r, hm⟩ := C154_exact p cs h1 h2 l h3
    obtain ⟨m', r', hb⟩ := C154_back p p cs h1 h2 l h3
    obtain rfl : m = m' := congrArg Prod.snd (r.symm.trans r')
    have same : ∀ ds ∈ ps, ∀ d ∈ ds, ∀ i, d.Covers i → m[i]? = l[i]? := fun ds hds d hd i hi =>
      (hm.2 i).2 fun c hc _ hci => a1 ds hds c hc d hd i ⟨hci, hi⟩
    obtain ⟨out, g1, g2, g3⟩ := ih m (fun ds hds => by rw [hm.1]; exact h ds (List.mem_cons_of_mem _ hds)) a2 (fun ds hds d hd hf => by
      obtain ⟨p1, p2⟩ := (h ds (List.mem_cons_of_mem _ hds)).1 d hd
      refine (foundIn_congr hm.1 fun i x y => same ds hds d hd i ⟨x, y⟩).2 (hn ds (List.mem_cons_of_mem _ hds) d hd ?_)
      refine (foundIn_congr hm.1 fun i x y => same ds hds d hd i ?_).1 hf
      rw [p1] at x y
      rw [p2] at y
      exact ⟨x, y⟩)
    refine ⟨out, g1.trans hm.1, ⟨m, r, g2⟩, ?_⟩
    rw [List.reverse_cons]
    exact g3.snoc (hb.2 (hn cs List.mem_cons_self))

/-- Any number of patches no two of which touch the same byte, and any file in which no clump of them has its new bytes and not the old
ones. Applied in any order and then taken back in any order, all of them, they give the file that was there. -/
theorem C158_undone (p : Profile) (ps qs rs : List (List (DiffClump UInt8))) (hq : ps.Perm qs) (hr : ps.Perm rs) (l : List UInt8)
    (h : ∀ cs ∈ ps, InPlacePatch l.length cs) (ha : ps.Pairwise TouchApart) (hn : ∀ cs ∈ ps, NotThereYet l cs) :
    ∃ out, out.length = l.length ∧ BytePatchesGive p qs l out ∧ BytePatchesBack p rs out l := by
  obtain ⟨out, g1, g2, g3⟩ := bytePatches_undone p ps l h ha hn
  obtain ⟨out', -, k1, k2⟩ := C156_order p ps qs hq l h ha
  obtain rfl := g2.unique k1
  refine ⟨out, g1, k2, ?_⟩
  have hps : ps.reverse.Perm rs := (List.reverse_perm ps).trans hr
  obtain ⟨l', -, k3, k4⟩ := C156_order p (ps.reverse.map fun cs => cs.map DiffClump.swap) (rs.map fun cs => cs.map DiffClump.swap) (hps.map _)
    out (fun ds hd => by
      obtain ⟨cs, hc, rfl⟩ := List.mem_map.1 hd
      obtain ⟨h1, h2, h3⟩ := h cs (List.mem_reverse.1 hc)
      obtain ⟨s1, s2⟩ := inPlace_swapped h1 h2
      exact ⟨s1, s2, by rw [weight_swapped, g1]; exact h3⟩) (by
      rw [List.pairwise_map]
      refine List.Pairwise.imp_of_mem ?_ (ha.perm (List.reverse_perm ps).symm fun h => h.symm)
      intro cs ds hc hd hap c hc' d hd' i hi
      obtain ⟨c, hm, rfl⟩ := List.mem_map.1 hc'
      obtain ⟨d, hm', rfl⟩ := List.mem_map.1 hd'
      obtain ⟨c1, c2⟩ := (h cs (List.mem_reverse.1 hc)).1 c hm
      obtain ⟨d1, d2⟩ := (h ds (List.mem_reverse.1 hd)).1 d hm'
      refine hap c hm d hm' i ?_
      simpa only [DiffClump.Covers, DiffClump.swap, c1, c2, d1, d2] using hi)
  rw [bytePatchesBack_swap] at k4
  obtain rfl := ((bytePatchesBack_swap p _ _ _).2 g3).unique k3
  exact k4

/-- All orders of these three, with a file in which the first clump is, the second is in part, and the others are not. -/
example (p : Profile) (qs rs : List (List (DiffClump UInt8))) (hq : threeInPlace.Perm qs) (hr : threeInPlace.Perm rs) :
    ∃ out, out.length = 10 ∧ BytePatchesGive p qs [1, 2, 3, 4, 5, 6, 7, 0, 8, 1] out ∧
      BytePatchesBack p rs out [1, 2, 3, 4, 5, 6, 7, 0, 8, 1] :=
  C158_undone p threeInPlace qs rs hq hr [1, 2, 3, 4, 5, 6, 7, 0, 8, 1] threeInPlace_patch threeInPlace_apart (by
    unfold NotThereYet
    simp only [foundIn_iff]
    decide)

theorem RunsLeave.append {q : Profile} {temp : Path} {patch : Nat → Path} {runs runs' : List (Nat × Bool)} {u v w : World}
    (h : RunsLeave q temp patch runs u v) (h' : RunsLeave q temp patch runs' v w) : RunsLeave q temp patch (runs ++ runs') u w := by
  induction runs generalizing u with
  | nil =>
    obtain rfl : v = u := h
    exact h'
  | cons x runs ih =>
    obtain ⟨t, r1, r2⟩ := h
    exact ⟨t, r1, ih r2⟩

theorem bytePatchesBack_program (q : Profile) (temp target : Path) (patch : Nat → Path) (d : Nat → ByteChangeDiff) (content : Nat → List UInt8)
    (ks : List Nat) (w : World) (hf : w.faults = [])
    (hp : ∀ k ∈ ks, w.fs.node (w.fs.entry (patch k)) = some (.file (content k)) ∧
      Diff.fromReader ⟨content k, false⟩ = .ok (.byteChange (d k)) ∧ (d k).beforePath = target ∧ w.fs.entry (patch k) ≠ w.fs.entry target)
    (hfree : w.fs.node (w.fs.entry temp) = none) (hnt : w.fs.entry temp ≠ w.fs.entry target) (l out : List UInt8)
    (h : BytePatchesBack q (ks.map fun k => (d k).clumps) l out) :
    RunsLeave q temp patch (ks.map fun k => (k, true)) { w with fs := w.fs.set (w.fs.entry target) (some (.file l)) }
      { w with fs := w.fs.set (w.fs.entry target) (some (.file out)) } := by
  induction ks generalizing l with
  | nil => rw [show out = l from h]; rfl
  | cons k ks ih =>
    obtain ⟨m, r1, r2⟩ := h
    obtain ⟨h1, h2, h3, h4⟩ := hp k List.mem_cons_self
    refine ⟨_, ?_, ih (fun j hj => hp j (List.mem_cons_of_mem _ hj)) m r2⟩
    have := C46_normal q temp (patch k) target true { w with fs := w.fs.set (w.fs.entry target) (some (.file l)) }
      (.byteChange (d k)) ⟨⟨content k, false⟩, FS.contentAt_of_file (by simp [h4, h1]), h2⟩ (congrArg some h3) hf (by simp [hnt, hfree])
      (FS.contentAt_of_file (c := l) (by simp)) r1
    rw [this]
    simp only [FS.set_entry, FS.set_set]

/-- The same of `pw_patch`: all runs end with exit status 0, and in the end everything is as it was. -/
theorem C158_program (q : Profile) (temp target : Path) (patch : Nat → Path) (d : Nat → ByteChangeDiff) (content : Nat → List UInt8)
    (ks ks' ks'' : List Nat) (hperm : ks.Perm ks') (hperm' : ks.Perm ks'') (w : World) (hf : w.faults = [])
    (hp : ∀ k ∈ ks, w.fs.node (w.fs.entry (patch k)) = some (.file (content k)) ∧
      Diff.fromReader ⟨content k, false⟩ = .ok (.byteChange (d k)) ∧ (d k).beforePath = target ∧ w.fs.entry (patch k) ≠ w.fs.entry target)
    (hfree : w.fs.node (w.fs.entry temp) = none) (l : List UInt8) (hold : w.fs.node (w.fs.entry target) = some (.file l))
    (h : ∀ k ∈ ks, InPlacePatch l.length (d k).clumps) (ha : ks.Pairwise fun j k => TouchApart (d j).clumps (d k).clumps)
    (hn : ∀ k ∈ ks, NotThereYet l (d k).clumps) :
    RunsLeave q temp patch ((ks'.map fun k => (k, false)) ++ ks''.map fun k => (k, true)) w w := by
  have hnt : w.fs.entry temp ≠ w.fs.entry target := by
    intro e
    rw [e, hold] at hfree
    cases hfree
  obtain ⟨out, h1, h2, h3⟩ := C158_undone q (ks.map fun k => (d k).clumps) (ks'.map fun k => (d k).clumps) (ks''.map fun k => (d k).clumps)
    (hperm.map _) (hperm'.map _) l (fun cs hc => by
      obtain ⟨k, hk, rfl⟩ := List.mem_map.1 hc
      exact h k hk) (List.pairwise_map.2 ha) (fun cs hc => by
      obtain ⟨k, hk, rfl⟩ := List.mem_map.1 hc
      exact hn k hk)
  have g1 := bytePatches_program q temp target patch d content ks' w hf (fun k hk => hp k (hperm.mem_iff.2 hk)) hfree hnt l out h2
  have g2 := bytePatchesBack_program q temp target patch d content ks'' w hf (fun k hk => hp k (hperm'.mem_iff.2 hk)) hfree hnt out l h3
  rw [FS.set_same _ hold] at g1 g2
  exact g1.append g2

/-- The clumps of the first two of these patches. -/
def inPlaceNumbered (k : Nat) : List (DiffClump UInt8) := if k = 0 then inPlaceClumps else [⟨(0, 0), ⟨3, [4, 5]⟩, ⟨3, [5, 4]⟩⟩]

theorem inPlace_files (l : List UInt8) : ∃ fs : FS, fs.node (fs.entry [84]) = none ∧ fs.node (fs.entry [65]) = some (.file l) ∧
    ∀ k ∈ [0, 1], fs.node (fs.entry [67 + k.toUInt8]) = some (.file (Diff.byteChange ⟨[65], [66], false, inPlaceNumbered k⟩).fileContent) ∧
      Diff.fromReader ⟨(Diff.byteChange ⟨[65], [66], false, inPlaceNumbered k⟩).fileContent, false⟩ =
        .ok (.byteChange ⟨[65], [66], false, inPlaceNumbered k⟩) ∧ fs.entry [67 + k.toUInt8] ≠ fs.entry [65] := by
  obtain ⟨e1, e2, e3, e4, e5, e6, e7, e8, e9, e10, e11⟩ := FS.ofFiles_patches l
    (Diff.byteChange ⟨[65], [66], false, inPlaceClumps⟩).fileContent
    (Diff.byteChange ⟨[65], [66], false, [⟨(0, 0), ⟨3, [4, 5]⟩, ⟨3, [5, 4]⟩⟩]⟩).fileContent
  generalize FS.ofFiles [([65], _), ([67], _), ([68], _)] = fs at *
  have read : ∀ (path : Path) (cs : List (DiffClump UInt8)), (∀ c ∈ cs, c.InRange) →
      fs.contentAt path = some ⟨(Diff.byteChange ⟨[65], [66], false, cs⟩).fileContent, false⟩ →
      Diff.fromReader ⟨(Diff.byteChange ⟨[65], [66], false, cs⟩).fileContent, false⟩ = .ok (.byteChange ⟨[65], [66], false, cs⟩) := by
    intro path cs hr hc
    have : HoldsDiff fs path (.byteChange ⟨[65], [66], false, cs⟩) := by
      refine holdsDiff_of_file hr ?_ hc
      intro path h
      simp only [Diff.paths, List.mem_cons, List.not_mem_nil, or_false] at h
      rcases h with rfl | rfl
      · exact ⟨['A'], by decide⟩
      · exact ⟨['B'], by decide⟩
    obtain ⟨r, hr1, hr2⟩ := this
    obtain rfl := Option.some.inj (hc.symm.trans hr1)
    exact hr2
  refine ⟨fs, by rw [e4, e8], by rw [e1, e5], ?_⟩
  intro k hk
  simp only [List.mem_cons, List.not_mem_nil, or_false] at hk
  rcases hk with rfl | rfl
  · refine ⟨?_, read [67] inPlaceClumps ?_ e10, ?_⟩
    · show fs.node (fs.entry [67]) = _
      rw [e2, e6]
      rfl
    · intro c hc
      simp [inPlaceClumps] at hc
      rcases hc with rfl | rfl <;> simp [DiffClump.InRange, wordSize]
    · show fs.entry [67] ≠ fs.entry [65]
      rw [e1, e2]
      decide
  · refine ⟨?_, read [68] [⟨(0, 0), ⟨3, [4, 5]⟩, ⟨3, [5, 4]⟩⟩] ?_ e11, ?_⟩
    · show fs.node (fs.entry [68]) = _
      rw [e3, e7]
      rfl
    · intro c hc
      simp at hc
      subst hc
      simp [DiffClump.InRange, wordSize]
    · show fs.entry [68] ≠ fs.entry [65]
      rw [e1, e3]
      decide

/-- The situation: `A` is this file, and `C` and `D` are the patches. -/
example (q : Profile) (ks ks' : List Nat) (hk : [0, 1].Perm ks) (hk' : [0, 1].Perm ks') :
    ∃ w : World, w.fs.contentAt [65] = some ⟨[1, 2, 3, 4, 5, 6, 7, 0, 8, 1], false⟩ ∧
      RunsLeave q [84] (fun k => [67 + k.toUInt8]) ((ks.map fun k => (k, false)) ++ ks'.map fun k => (k, true)) w w := by
  obtain ⟨fs, hfree, hold, hfiles⟩ := inPlace_files [1, 2, 3, 4, 5, 6, 7, 0, 8, 1]
  refine ⟨⟨fs, [], []⟩, FS.contentAt_of_file hold, C158_program q [84] [65] (fun k => [67 + k.toUInt8])
    (fun k => ⟨[65], [66], false, inPlaceNumbered k⟩) (fun k => (Diff.byteChange ⟨[65], [66], false, inPlaceNumbered k⟩).fileContent)
    [0, 1] ks ks' hk hk' ⟨fs, [], []⟩ rfl (fun k hk => ⟨(hfiles k hk).1, (hfiles k hk).2.1, rfl, (hfiles k hk).2.2⟩) hfree _ hold ?_ ?_ ?_⟩
  · intro k hk
    exact threeInPlace_patch _ ((by decide : ∀ k ∈ [0, 1], inPlaceNumbered k ∈ threeInPlace) k hk)
  · refine List.pairwise_cons.2 ⟨fun k hk => ?_, List.pairwise_singleton _ _⟩
    obtain rfl := List.mem_singleton.1 hk
    exact (List.pairwise_cons.1 threeInPlace_apart).1 _ (by decide)
  · unfold NotThereYet
    simp only [foundIn_iff]
    decide

/-- What one may expect: that the condition is not needed. -/
def C158_statement : Prop :=
  ∀ (p : Profile) (cs : List (DiffClump UInt8)) (l : List UInt8), InPlacePatch l.length cs →
    ∃ out, BytePatchesGive p [cs] l out ∧ BytePatchesBack p [cs] out l

/-- That is not so: what was there before the patch was applied is taken back too. -/
theorem C158_refuted : ¬ C158_statement := by
  intro h
  obtain ⟨out, ⟨m, r1, e⟩, n, r2, e'⟩ := h .debug [⟨(0, 0), ⟨0, [1]⟩, ⟨0, [2]⟩⟩] [2] (by unfold InPlacePatch InRow; decide +kernel)
  have e1 : (byteApplyInto .debug [⟨(0, 0), ⟨0, [1]⟩, ⟨0, [2]⟩⟩] [2] false).run = (.ok (), [2]) := by decide +kernel
  have e2 : (byteApplyInto .debug [⟨(0, 0), ⟨0, [1]⟩, ⟨0, [2]⟩⟩] [2] true).run = (.ok (), [1]) := by decide +kernel
  obtain rfl : [2] = m := congrArg Prod.snd (e1.symm.trans r1)
  obtain rfl : out = [2] := e
  obtain rfl : [1] = n := congrArg Prod.snd (e2.symm.trans r2)
  revert e'
  simp [BytePatchesBack]

end PwDiff
