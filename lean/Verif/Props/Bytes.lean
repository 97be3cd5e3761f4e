import Verif.Proofs.ApplyBytes

/-! # C27, C32, C37, C40–C42, C60: byte patches -/

namespace PwDiff

/-! ## C60 -/

/-- `apply_into` of a byte patch ends, on a writer that does not fail, exactly as `BytePatching` describes. -/
theorem C60_refines (p : Profile) (l : List UInt8) (cs : List (DiffClump UInt8)) (hsz : l.length + weight cs < wordSize)
    (out : List UInt8) (r : Outcome Unit) :
    (byteApplyInto p cs l false).run = (r, out) ↔ BytePatching l 0 cs out r := by
  obtain ⟨out', r', h1, h2⟩ := byteApplyInto_refines p l cs hsz
  rw [h1, WM.run_emit]
  constructor
  · intro h
    obtain ⟨rfl, rfl⟩ := Prod.mk.inj h
    exact h2
  · intro h
    obtain ⟨rfl, rfl⟩ := h.unique h2
    rfl

/-- A byte patch with one clump that fits, one already applied and one that does not fit. -/
example : (byteApplyInto .debug [⟨(0, 0), ⟨0, [1]⟩, ⟨0, [9, 9]⟩⟩, ⟨(0, 0), ⟨1, [7]⟩, ⟨2, [3]⟩⟩, ⟨(0, 0), ⟨3, [7]⟩, ⟨3, [8]⟩⟩]
    [1, 2, 3, 4] false).run = (.ok (), [9, 9, 2, 3, 4]) := by decide +kernel
/-- Overlapping clumps: everything is written except the rest, then there is a panic, in both build profiles. -/
example (p : Profile) : (byteApplyInto p [⟨(0, 0), ⟨0, [1, 2]⟩, ⟨0, [9]⟩⟩, ⟨(0, 0), ⟨1, [2]⟩, ⟨1, [8]⟩⟩] [1, 2] false).run =
    (.panic, [9, 8]) := by cases p <;> decide +kernel

/-! ## C27 -/

/-- An empty byte patch copies the file. -/
theorem C27_bytes (p : Profile) (l : List UInt8) (rev : Bool) : (byteApplyInto p [] l rev).run = (.ok (), l) := by
  have : byteApplyInto p [] l rev = WM.emit l (.ok ()) := by
    unfold byteApplyInto byteApplyLoop ConsumableSeq.new
    simp only [pure_bind]
    rw [writeRemainder_eq p l 0 (by omega), cut_full, bytesOf_uint8]
    exact WM.emit_bind_pure _ _ _
  rw [this, WM.run_emit]

/-! ## C32 -/

/-- Reverse is forward of the patch with before and after exchanged, on every writer. -/
theorem C32_bytes (p : Profile) (cs : List (DiffClump UInt8)) (l : List UInt8) :
    byteApplyInto p cs l true = byteApplyInto p (cs.map fun c => DiffClump.mk c.contextLengths c.after c.before) l false ∧
    byteAlreadyApplied p l true cs =
      byteAlreadyApplied p l false (cs.map fun c => DiffClump.mk c.contextLengths c.after c.before) :=
  ⟨(byteApply_swap p false l cs).symm, (byteAlready_swap p false l cs).symm⟩

/-! ## C37 -/

/-- A failing writer gets exactly the first `n` bytes of the full output. -/
theorem C37_bytes (p : Profile) (cs : List (DiffClump UInt8)) (l : List UInt8) (rev : Bool) (n : Nat) :
    let (r, out) := (byteApplyInto p cs l rev).run
    byteApplyInto p cs l rev ⟨[], some n⟩ =
      if out.length ≤ n then (r, ⟨out, some (n - out.length)⟩) else (.ioErr, ⟨out.take n, some 0⟩) := by
  have h := (norm_byteApplyInto p cs l rev).eq_run
  generalize hr : (byteApplyInto p cs l rev).run = x at h
  rw [h, WM.emit_apply]
  simp

example : (byteApplyInto .debug [⟨(0, 0), ⟨0, [1]⟩, ⟨0, [9, 9]⟩⟩] [1, 2, 3, 4] false ⟨[], some 3⟩) =
    (.ioErr, ⟨[9, 9, 2], some 0⟩) := by decide +kernel

/-! ## C40 -/

/-- The full statement of C40. -/
def C40_statement : Prop :=
  ∀ (p : Profile) (before after : List UInt8) (context : Nat) (cs : List (DiffClump UInt8)), context ≤ 255 →
    diffClumps p before after context = .ok cs →
    (byteApplyInto p cs before false).run = (.ok (), after) ∧ (byteApplyInto p cs after true).run = (.ok (), before)

/-- It fails already for the smallest case: the patch that fills an empty file leaves it empty. -/
theorem C40_refuted : ¬ C40_statement := by
  intro h
  have := (h .debug [] [1] 0 [⟨(0, 0), ⟨0, []⟩, ⟨0, [1]⟩⟩] (by decide) (by decide +kernel)).1
  revert this
  decide +kernel

theorem byteSize {before after : List UInt8} {cs : List (DiffClump UInt8)} (h : IsDiff before after cs)
    (hb : 2 * before.length + after.length < wordSize) : before.length + weight cs < wordSize := by
  have := h.weight
  omega

theorem byte_to_source (p : Profile) {before after : List UInt8} {cs : List (DiffClump UInt8)} (h : IsDiff before after cs)
    (hb : 2 * before.length + after.length < wordSize) (hin : ∀ c ∈ cs, c.before.start < before.length) :
    byteApplyInto p cs before false = WM.emit (patchedFrom before 0 0 cs) (.ok ()) := by
  obtain ⟨skip, hd⟩ := h.diffed
  have := bytePatching_clean before 0 cs hd.standInOrder hin
  obtain ⟨o, r, e1, e2⟩ := byteApplyInto_refines p before cs (byteSize h hb)
  obtain ⟨rfl, rfl⟩ := e2.unique this
  exact e1

/-- What holds: with context (at least 1) the patch of a nonempty file succeeds on it, the output has the length of
`after`, and it is `after` exactly if the stretches the patch leaves out are equal, in particular if no single differing
pair of bytes stands between two equal pairs. -/
theorem C40_partial (p q : Profile) (before after : List UInt8) (context : Nat) (h1 : 1 ≤ context) (hctx : context ≤ 255)
    (hne : before ≠ []) (hsz : 2 * before.length + after.length < wordSize) (cs : List (DiffClump UInt8))
    (h : diffClumps p before after context = .ok cs) :
    ∃ bytes, (byteApplyInto q cs before false).run = (.ok (), bytes) ∧ bytes.length = after.length ∧
      (bytes = after ↔ ∀ g ∈ gaps before 0 0 cs, cut before g.b (g.b + g.n) = cut after g.a (g.a + g.n)) ∧
      (NoIsland before after → bytes = after) := by
  obtain ⟨hd, changes, hch, hd2⟩ := diffClumps_full hctx h
  refine ⟨patchedFrom before 0 0 cs, ?_, ?_, ?_, ?_⟩
  · rw [byte_to_source q hd hsz (fun c hc => (diffClumps_starts h1 h c hc).1 hne), WM.run_emit]
  · have := hd2.patched.1
    omega
  · have := hd2.patched.2
    rwa [List.drop_zero] at this
  · intro hi
    have := hd2.patched.2.2 (gaps_equal_of_noIsland hch hd2 hi)
    rwa [List.drop_zero] at this

/-- The same in reverse. -/
theorem C40_reverse_partial (p q : Profile) (before after : List UInt8) (context : Nat) (h1 : 1 ≤ context) (hctx : context ≤ 255)
    (hne : after ≠ []) (hsz : 2 * after.length + before.length < wordSize) (cs : List (DiffClump UInt8))
    (h : diffClumps p before after context = .ok cs) :
    ∃ bytes, (byteApplyInto q cs after true).run = (.ok (), bytes) ∧ bytes.length = before.length ∧
      (bytes = before ↔ ∀ g ∈ gaps before 0 0 cs, cut before g.b (g.b + g.n) = cut after g.a (g.a + g.n)) ∧
      (NoIsland before after → bytes = before) := by
  obtain ⟨hd, changes, hch, hd2⟩ := diffClumps_full hctx h
  have hs := hd2.swap
  have hrun := byte_to_source q hd.swap hsz (by
    intro c hc
    obtain ⟨c', hc', rfl⟩ := List.mem_map.1 hc
    exact (diffClumps_starts h1 h c' hc').2 hne)
  rw [byteApply_swap] at hrun
  have hiff := hs.patched.2
  rw [List.drop_zero] at hiff
  have hg : (∀ g ∈ gaps after 0 0 (cs.map DiffClump.swap), cut after g.b (g.b + g.n) = cut before g.a (g.a + g.n)) ↔
      ∀ g ∈ gaps before 0 0 cs, cut before g.b (g.b + g.n) = cut after g.a (g.a + g.n) := by
    rw [gaps_swap hd2]
    constructor
    · intro h g hg
      exact (h ⟨g.a, g.b, g.n⟩ (List.mem_map_of_mem (f := fun g : CommonSubsequence => (⟨g.a, g.b, g.n⟩ : CommonSubsequence)) hg)).symm
    · intro h g hg
      obtain ⟨g', hg', rfl⟩ := List.mem_map.1 hg
      exact (h g' hg').symm
  refine ⟨patchedFrom after 0 0 (cs.map DiffClump.swap), ?_, ?_, ?_, ?_⟩
  · rw [show (true : Bool) = !false from rfl, hrun, WM.run_emit]
  · have := hs.patched.1
    omega
  · rw [hiff, hg]
  · intro hi
    exact hiff.2 (hg.2 (gaps_equal_of_noIsland hch hd2 hi))

example : diffClumps .debug ([1, 2, 3, 4, 5] : List UInt8) [1, 3, 4, 5, 6] 1 =
    .ok [⟨(1, 1), ⟨0, [1, 2, 3]⟩, ⟨0, [1, 3]⟩⟩, ⟨(1, 0), ⟨4, [5]⟩, ⟨3, [5, 6]⟩⟩] := by decide +kernel
example : NoIsland ([1, 2, 3, 4, 5] : List UInt8) [1, 3, 4, 5, 6] := noIsland_of_check (by decide +kernel)

example := C40_partial .debug .release ([1, 2, 3, 4, 5] : List UInt8) [1, 3, 4, 5, 6] 1 (by decide) (by decide) (by decide) (by decide)
  [⟨(1, 1), ⟨0, [1, 2, 3]⟩, ⟨0, [1, 3]⟩⟩, ⟨(1, 0), ⟨4, [5]⟩, ⟨3, [5, 6]⟩⟩] (by decide +kernel)

/-- What is lost without the two conditions: on an empty file every byte patch does nothing at all and reports success. -/
theorem C40_empty (q : Profile) (cs : List (DiffClump UInt8)) : (byteApplyInto q cs [] false).run = (.ok (), []) := by
  have loop : ∀ (cs : List (DiffClump UInt8)), byteApplyLoop q [] false cs ⟨[], 0⟩ = pure ⟨[], 0⟩ := by
    intro cs
    induction cs with
    | nil => rfl
    | cons c cs ih =>
      unfold byteApplyLoop
      have step : byteApplyStep q [] false c ⟨[], 0⟩ = pure ⟨[], 0⟩ := by
        unfold byteApplyStep byteWillApply byteIsAlreadyApplied hasSubsequenceAt
        rfl
      rw [step, pure_bind, ih]
  unfold byteApplyInto ConsumableSeq.new
  rw [loop, pure_bind, writeRemainder_eq q [] 0 (by simp)]
  rfl

/-! ## C41 -/

/-- The full statement of C41. -/
def C41_statement : Prop :=
  ∀ (p : Profile) (before after : List UInt8) (context : Nat) (cs : List (DiffClump UInt8)), context ≤ 255 →
    diffClumps p before after context = .ok cs → byteAlreadyApplied p after false cs = .ok true

/-- It fails: a patch that empties a file is not recognised. -/
theorem C41_refuted : ¬ C41_statement := by
  intro h
  have := h .debug [1] [] 3 [⟨(0, 0), ⟨0, [1]⟩, ⟨0, []⟩⟩] (by decide) (by decide +kernel)
  revert this
  decide +kernel

/-- What holds: the answer is always given, it is `true` exactly if no clump starts at the end of `after`, and that is the
case if there is context (at least 1) and `after` is not empty. -/
theorem C41_partial (p q : Profile) (before after : List UInt8) (context : Nat) (hctx : context ≤ 255)
    (cs : List (DiffClump UInt8)) (h : diffClumps p before after context = .ok cs) :
    (∃ b, byteAlreadyApplied q after false cs = .ok b ∧ (b = true ↔ ∀ c ∈ cs, c.after.start < after.length)) ∧
    (1 ≤ context → after ≠ [] → byteAlreadyApplied q after false cs = .ok true) := by
  obtain ⟨hd, changes, hch, hd2⟩ := diffClumps_full hctx h
  obtain ⟨b, e1, e2⟩ := byteAlreadyApplied_spec q after cs
  have hiff : b = true ↔ ∀ c ∈ cs, c.after.start < after.length := by
    rw [e2]
    exact ⟨fun g c hc => (g c hc).1, fun g c hc => ⟨g c hc, (hd2.stands c hc).2⟩⟩
  refine ⟨⟨b, e1, hiff⟩, ?_⟩
  intro h1 hne
  rw [e1, hiff.2 (fun c hc => (diffClumps_starts h1 h c hc).2 hne)]

example : byteAlreadyApplied .debug [1, 3, 4, 5, 6] false
    [⟨(1, 1), ⟨0, [1, 2, 3]⟩, ⟨0, [1, 3]⟩⟩, ⟨(1, 0), ⟨4, [5]⟩, ⟨3, [5, 6]⟩⟩] = .ok true := by decide +kernel

/-! ## C42 -/

/-- If no clump is found on either side, the file is copied and the result is success. -/
theorem C42_skipped (p : Profile) (l : List UInt8) (cs : List (DiffClump UInt8)) (hsz : l.length + weight cs < wordSize)
    (h : ∀ c ∈ cs, ¬ FoundIn l c.before ∧ ¬ FoundIn l c.after) : (byteApplyInto p cs l false).run = (.ok (), l) := by
  have := bytePatching_skip l 0 (by omega) cs h
  rw [List.drop_zero] at this
  exact (C60_refines p l cs hsz _ _).2 this

example : ¬ FoundIn [1, 2] ⟨0, [2]⟩ ∧ ¬ FoundIn [1, 2] ⟨1, [2, 3]⟩ := by
  constructor <;> (unfold FoundIn; rw [standsAt_nat]; decide)

end PwDiff
