import Verif.Props.ByteInPlace

/-! # C155: what a byte patch that replaces bytes in place gives -/

namespace PwDiff

/-- Such a patch leaves a file as it is if and only if every clump whose old bytes are there has the same bytes as new ones. -/
theorem C155_nothing (p : Profile) (cs : List (DiffClump UInt8)) (hp : ∀ c ∈ cs, c.InPlace) (ho : InRow cs) (l : List UInt8)
    (hsz : l.length + weight cs < wordSize) :
    (byteApplyInto p cs l false).run = (.ok (), l) ↔ ∀ c ∈ cs, FoundIn l c.before → c.after.items = c.before.items := by
  obtain ⟨out, r, h⟩ := C154_exact p cs hp ho l hsz
  constructor
  · intro e c hc hf
    obtain rfl : out = l := congrArg Prod.snd (r.symm.trans e)
    obtain ⟨-, -, h1⟩ := (foundIn_iff _ _).1 hf
    obtain ⟨-, -, h2⟩ := (foundIn_iff _ _).1 ((h.at hp ho hc).1 hf)
    obtain ⟨p1, p2⟩ := hp c hc
    rw [p1, p2] at h2
    refine List.ext_getElem? fun i => ?_
    by_cases hi : i < c.before.items.length
    · rw [← h1 i hi, h2 i hi]
    · rw [List.getElem?_eq_none (by omega), List.getElem?_eq_none (by omega)]
  · intro hs
    suffices out = l by rw [this] at r; exact r
    refine List.ext_getElem? fun i => ?_
    by_cases hc : ∃ c ∈ cs, FoundIn l c.before ∧ c.Covers i
    · obtain ⟨c, hc, hf, hi⟩ := hc
      rw [(h.2 i).1 c hc hi hf, hs c hc hf, hf.byte hi.1 hi.2]
    · exact (h.2 i).2 fun c hm hf hi => hc ⟨c, hm, hf, hi⟩

/-- A patch with which `a` becomes `b`. It makes exactly those files `b` that have the bytes of `a` wherever no clump is, and at the
place of each clump either the old bytes or the new ones. -/
theorem C155_whole (p q : Profile) (cs : List (DiffClump UInt8)) (hp : ∀ c ∈ cs, c.InPlace) (ho : InRow cs) (a b l : List UInt8)
    (hsa : a.length + weight cs < wordSize) (hsz : l.length + weight cs < wordSize) (ha : ∀ c ∈ cs, FoundIn a c.before)
    (hab : (byteApplyInto q cs a false).run = (.ok (), b)) :
    (byteApplyInto p cs l false).run = (.ok (), b) ↔
      l.length = a.length ∧ (∀ i, (∀ c ∈ cs, ¬ c.Covers i) → l[i]? = a[i]?) ∧ ∀ c ∈ cs, FoundIn l c.before ∨ FoundIn l c.after := by
  obtain ⟨b', rb, hb⟩ := C154_exact q cs hp ho a hsa
  obtain rfl : b' = b := congrArg Prod.snd (rb.symm.trans hab)
  obtain ⟨out, r, h⟩ := C154_exact p cs hp ho l hsz
  have hcov : ∀ c ∈ cs, ∀ i, c.after.start ≤ i → i < c.after.start + c.after.items.length → c.Covers i := by
    intro c hc i h1 h2
    obtain ⟨p1, p2⟩ := hp c hc
    rw [p1] at h1 h2
    rw [p2] at h2
    exact ⟨h1, h2⟩
  constructor
  · intro e
    obtain rfl : out = b' := congrArg Prod.snd (r.symm.trans e)
    refine ⟨h.1.symm.trans hb.1, fun i hi => ?_, fun c hc => ?_⟩
    · rw [← (h.2 i).2 fun c hc _ => hi c hc, (hb.2 i).2 fun c hc _ => hi c hc]
    · by_cases hf : FoundIn l c.before
      · exact .inl hf
      · refine .inr ((foundIn_congr h.1 fun i h1 h2 => (h.at hp ho hc).2 hf i (hcov c hc i h1 h2)).1 ((hb.at hp ho hc).1 (ha c hc)))
  · rintro ⟨h1, h2, h3⟩
    suffices out = b' by rw [this] at r; exact r
    refine List.ext_getElem? fun i => ?_
    by_cases hc : ∃ c ∈ cs, c.Covers i
    · obtain ⟨c, hc, hi⟩ := hc
      rw [(hb.2 i).1 c hc hi (ha c hc)]
      by_cases hf : FoundIn l c.before
      · exact (h.2 i).1 c hc hi hf
      · obtain ⟨p1, p2⟩ := hp c hc
        obtain ⟨i1, i2⟩ := hi
        have := ((h3 c hc).resolve_left hf).byte (i := i) (by omega) (by omega)
        rw [(h.at hp ho hc).2 hf i ⟨i1, i2⟩, this, p1]
    · have hno : ∀ c ∈ cs, ¬ c.Covers i := fun c hm hi => hc ⟨c, hm, hi⟩
      rw [(h.2 i).2 fun c hm _ => hno c hm, (hb.2 i).2 fun c hm _ => hno c hm, h2 i hno]

/-- Nothing of the patch fits, and nothing happens. -/
example (p : Profile) : (byteApplyInto p inPlaceClumps [1, 2, 4, 7, 7, 7, 7, 7, 7] false).run = (.ok (), [1, 2, 4, 7, 7, 7, 7, 7, 7]) := by
  refine (C155_nothing p inPlaceClumps (by decide) inPlaceClumps_row _ (by decide +kernel)).2 ?_
  intro c hc hf
  simp only [inPlaceClumps, List.mem_cons, List.not_mem_nil, or_false] at hc
  rcases hc with rfl | rfl
  · have := hf.byte (i := 2) (by decide) (by decide)
    revert this
    decide
  · have := hf.byte (i := 5) (by decide) (by decide)
    revert this
    decide

theorem inPlaceClumps_there : ∀ c ∈ inPlaceClumps, FoundIn [1, 2, 3, 4, 5, 6, 7, 7, 8] c.before := by
  intro c hc
  rw [foundIn_iff]
  revert c
  decide

/-- The second clump was applied to this file before. -/
example (p : Profile) : (byteApplyInto p inPlaceClumps [1, 2, 3, 4, 5, 6, 0, 0, 8] false).run = (.ok (), [1, 9, 3, 4, 5, 6, 0, 0, 8]) := by
  refine (C155_whole p .debug inPlaceClumps (by decide) inPlaceClumps_row [1, 2, 3, 4, 5, 6, 7, 7, 8] _ _ (by decide +kernel)
    (by decide +kernel) inPlaceClumps_there (by decide +kernel)).2 ⟨rfl, fun i hi => ?_, fun c hc => ?_⟩
  · have h1 := hi ⟨(1, 1), ⟨5, [6, 7, 7, 8]⟩, ⟨5, [6, 0, 0, 8]⟩⟩ (by simp [inPlaceClumps])
    simp only [DiffClump.Covers, List.length_cons, List.length_nil] at h1
    by_cases h5 : i < 5
    · revert i
      intro i _ _ h5
      match i, h5 with
      | 0, _ | 1, _ | 2, _ | 3, _ | 4, _ => rfl
    · rw [List.getElem?_eq_none (by simp; omega), List.getElem?_eq_none (by simp; omega)]
  · rw [foundIn_iff, foundIn_iff]
    revert c
    decide

/-- The same of `pw_patch`: what such a patch does not fit is left as it was, and the exit status is 0 all the same. -/
theorem C155_program (q : Profile) (temp patch target : Path) (w : World) (hf : w.faults = []) (d : ByteChangeDiff) (content : List UInt8)
    (hp : w.fs.node (w.fs.entry patch) = some (.file content)) (hc : Diff.fromReader ⟨content, false⟩ = .ok (.byteChange d))
    (ht : d.beforePath = target) (hfree : w.fs.node (w.fs.entry temp) = none) (l : List UInt8)
    (hold : w.fs.node (w.fs.entry target) = some (.file l)) (hi : ∀ c ∈ d.clumps, c.InPlace) (ho : InRow d.clumps)
    (hno : ∀ c ∈ d.clumps, ¬ FoundIn l c.before) (hsz : l.length + weight d.clumps < wordSize) :
    (pwPatch q temp patch false).run w = (.exited 0, w) := by
  have h := (C155_nothing q d.clumps hi ho l hsz).2 fun c hm hfd => absurd hfd (hno c hm)
  have := C46_normal q temp patch target false w (.byteChange d) ⟨⟨content, false⟩, FS.contentAt_of_file hp, hc⟩ (congrArg some ht) hf hfree
    (FS.contentAt_of_file hold) h
  rw [this, FS.set_same _ hold]

/-- The situation: `A` is any file of nine bytes the first of which is 2 and the last 9, and `C` is the patch. -/
example (q : Profile) (l : List UInt8) (hl : l.length = 9) (h0 : l[0]? = some 2) (h8 : l[8]? = some 9) :
    ∃ w : World, w.fs.contentAt [65] = some ⟨l, false⟩ ∧ (pwPatch q [84] [67] false).run w = (.exited 0, w) := by
  obtain ⟨e1, e2, e3, e4, e5, e6, e7, e8, e9, e10, e11⟩ := FS.ofFiles_patches l
    (Diff.byteChange ⟨[65], [66], false, inPlaceClumps⟩).fileContent []
  generalize FS.ofFiles [([65], _), ([67], _), ([68], _)] = fs at *
  have : HoldsDiff fs [67] (.byteChange ⟨[65], [66], false, inPlaceClumps⟩) := by
    refine holdsDiff_of_file (by
      intro c hc
      simp [inPlaceClumps] at hc
      rcases hc with rfl | rfl <;> simp [DiffClump.InRange, wordSize]) ?_ e10
    intro path h
    simp only [Diff.paths, List.mem_cons, List.not_mem_nil, or_false] at h
    rcases h with rfl | rfl
    · exact ⟨['A'], by decide⟩
    · exact ⟨['B'], by decide⟩
  obtain ⟨r, hr1, hr2⟩ := this
  obtain rfl := Option.some.inj (e10.symm.trans hr1)
  refine ⟨⟨fs, [], []⟩, ?_, C155_program q [84] [67] [65] ⟨fs, [], []⟩ rfl _ _ (by rw [e2, e6]) hr2 rfl ?_ l ?_ (by decide) inPlaceClumps_row ?_ ?_⟩
  · exact e9
  · rw [e4, e8]
  · rw [e1, e5]
  · intro c hc hf
    simp only [inPlaceClumps, List.mem_cons, List.not_mem_nil, or_false] at hc
    rcases hc with rfl | rfl
    · have := hf.byte (i := 0) (by decide) (by decide)
      rw [h0] at this
      revert this
      decide
    · have := hf.byte (i := 8) (by decide) (by decide)
      rw [h8] at this
      revert this
      decide
  · rw [hl]
    decide +kernel

end PwDiff
