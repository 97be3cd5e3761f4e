import Verif.Props.Clean
import Verif.Props.Bytes

/-! # C92: patches to different parts of a file -/

namespace PwDiff

section

variable {T : Type}

/-- The old lines all stand in the first `m` lines. -/
theorem StandInOrder.take {l : List T} {k m : Nat} {cs : List (DiffClump T)} (h : StandInOrder l 0 k cs) (hk : k ≤ m)
    (hm : m ≤ l.length) (hc : ∀ c ∈ cs, c.before.start + c.before.items.length ≤ m) : StandInOrder (l.take m) 0 k cs := by
  induction cs generalizing k with
  | nil => show k ≤ (l.take m).length; rw [List.length_take]; omega
  | cons c cs ih =>
    obtain ⟨h1, h2, h3⟩ := h
    have hb := hc c (by simp)
    refine ⟨h1, ?_, ih h3 (by omega) fun c h => hc c (by simp [h])⟩
    rw [standsAt_iff] at h2 ⊢
    obtain ⟨g1, g2, g3⟩ := h2
    refine ⟨g1, by rw [List.length_take]; omega, ?_⟩
    rw [← g3]
    apply List.ext_getElem?
    intro t
    rw [g3]
    simp only [cut_getElem?]
    split
    · rw [List.getElem?_take, if_pos (by omega), ← g3, cut_getElem?, if_pos (by omega)]
    · rw [List.getElem?_eq_none (by omega)]

/-- The old lines stand after line `m`: lines in front of it may be replaced. -/
theorem StandInOrder.replaceFront {l : List T} {k m : Nat} {cs : List (DiffClump T)} (h : StandInOrder l 0 k cs) (hm : m ≤ k)
    (front : List T) :
    StandInOrder (front ++ l.drop m) ((front.length : Int) - m) (k - m + front.length) cs ∧
      patchedFrom (front ++ l.drop m) ((front.length : Int) - m) (k - m + front.length) cs = patchedFrom l 0 k cs := by
  have hle := h.le
  induction cs generalizing k with
  | nil =>
    refine ⟨by show _ ≤ _; rw [List.length_append, List.length_drop]; omega, ?_⟩
    simp only [patchedFrom]
    rw [List.drop_append, List.drop_of_length_le (by omega), List.nil_append, List.drop_drop]
    congr 1; omega
  | cons c cs ih =>
    obtain ⟨h1, h2, h3⟩ := h
    have e0 : (c.before.start + (0 : Int)).toNat = c.before.start := by omega
    rw [e0] at h3
    obtain ⟨i1, i2⟩ := ih h3 (by omega) h3.le
    have e : (c.before.start + ((front.length : Int) - m)).toNat = c.before.start - m + front.length := by omega
    have e1 : c.before.start - m + front.length + c.before.items.length
        = c.before.start + c.before.items.length - m + front.length := by omega
    obtain ⟨-, g2, g3⟩ := (standsAt_iff _ _ _).1 h2
    rw [e0] at g2 g3
    have move : ∀ a b : Nat, m ≤ a → cut (front ++ l.drop m) (a - m + front.length) (b - m + front.length) = cut l a b := by
      intro a b ha
      apply List.ext_getElem?
      intro t
      simp only [cut_getElem?]
      by_cases ht : t < b - a
      · rw [if_pos (by omega), if_pos ht, List.getElem?_append_right (by omega), List.getElem?_drop]
        congr 1; omega
      · rw [if_neg (by omega), if_neg ht]
    refine ⟨⟨by omega, ?_, ?_⟩, ?_⟩
    · rw [standsAt_iff, e, e1, move _ _ (by omega)]
      exact ⟨by omega, by rw [List.length_append, List.length_drop]; omega, g3⟩
    · rw [e, e1]; exact i1
    · simp only [patchedFrom]
      rw [e, e0, e1, i2, move _ _ hm]

/-- The lines before the first old lines are copied. -/
theorem StandInOrder.later {l : List T} {d : Int} {k k' : Nat} {cs : List (DiffClump T)} (hk : k ≤ k') (hl : k' ≤ l.length)
    (h : StandInOrder l d k cs) (hc : ∀ c ∈ cs, (k' : Int) ≤ c.before.start + d) :
    StandInOrder l d k' cs ∧ patchedFrom l d k cs = cut l k k' ++ patchedFrom l d k' cs := by
  cases cs with
  | nil =>
    refine ⟨hl, ?_⟩
    simp only [patchedFrom]
    rw [← cut_length_eq, ← cut_length_eq, cut_append _ hk hl]
  | cons c cs =>
    have := hc c (by simp)
    refine ⟨⟨this, h.2⟩, ?_⟩
    simp only [patchedFrom]
    rw [← cut_append l hk (show k' ≤ (c.before.start + d).toNat by omega)]
    simp only [List.append_assoc]

/-- The converse: what stands after `k'` stands after `k`. -/
theorem StandInOrder.earlier {l : List T} {d : Int} {k k' : Nat} {cs : List (DiffClump T)} (hk : k ≤ k')
    (h : StandInOrder l d k' cs) : StandInOrder l d k cs := by
  cases cs with
  | nil => exact Nat.le_trans hk h
  | cons c cs => exact ⟨by have := h.1; omega, h.2⟩

end

section

variable {T : Type} [Item T] [DecidableEq T] [LawfulItem T]

/-- Two patches made from the same file, the clumps of the first one in the first `m` lines, those of the second one after
them.  The first patch makes `front` of the first `m` lines and the second one makes `back` of the others.

Applied to what the second one has made, the first one is still clean and gives `front ++ back`.  If `front` is as long as
the lines it replaces, the same is true the other way round.  Otherwise the clumps of the second patch have moved: if the
search for the first of them finds nothing nearer than its new place, again `front ++ back` is written, one clump counting as
fuzzy. -/
theorem C92_partial (p p' q : Profile) (file after after' : List T) (context context' : Nat) (hctx : context ≤ 255)
    (hctx' : context' ≤ 255) (hsz : file.length + after.length + after'.length ≤ maxLines)
    (cs cs' : List (DiffClump T)) (h : diffClumps p file after context = .ok cs)
    (h' : diffClumps p' file after' context' = .ok cs') (m : Nat) (hm : m ≤ file.length)
    (hc : ∀ c ∈ cs, c.before.start + c.before.items.length ≤ m) (hc' : ∀ c ∈ cs', m ≤ c.before.start) :
    ∃ front back,
      (applyInto q cs file false).run = (.ok { clean := cs.length }, bytesOf (front ++ file.drop m)) ∧
      (applyInto q cs' file false).run = (.ok { clean := cs'.length }, bytesOf (file.take m ++ back)) ∧
      (applyInto q cs (file.take m ++ back) false).run = (.ok { clean := cs.length }, bytesOf (front ++ back)) ∧
      (front.length = m →
        (applyInto q cs' (front ++ file.drop m) false).run = (.ok { clean := cs'.length }, bytesOf (front ++ back))) ∧
      ∀ (d : Int) (c : DiffClump T) (rest : List (DiffClump T)), cs' = c :: rest → d = (front.length : Int) - m → d ≠ 0 →
        (0 < d → c.before.start + d <
          searchLimit (front ++ file.drop m) c.contextLengths c.before (rest.head?.map DiffClump.before) 0) →
        (∀ e : Int, e.natAbs < d.natAbs → Fits c.before.items c.contextLengths (front ++ file.drop m) (c.before.start + e) none) →
        (0 < d → Fits c.before.items c.contextLengths (front ++ file.drop m) (c.before.start - d) none) →
        ¬ (q = .debug ∧
          Underflow (front ++ file.drop m) c.contextLengths c.before (rest.head?.map DiffClump.before) 0) →
        (applyInto q cs' (front ++ file.drop m) false).run =
          (.ok { fuzzy := 1, clean := rest.length }, bytesOf (front ++ back)) := by
  have hd := (diffClumps_full hctx h).1
  have hd' := (diffClumps_full hctx' h').1
  have hw := hd.wellFormed (by omega) (by omega)
  have hw' := hd'.wellFormed (by omega) (by omega)
  have hwt := hd.weight
  have hwt' := hd'.weight
  obtain ⟨skip, hs⟩ := hd.diffed
  obtain ⟨skip', hs'⟩ := hd'.diffed
  have hso := hs.standInOrder
  have hso' := hs'.standInOrder
  have htake := hso.take (Nat.zero_le m) hm hc
  have hpost : ∀ post : List T, StandInOrder (file.take m ++ post) 0 0 cs ∧
      patchedFrom (file.take m ++ post) 0 0 cs = patchedFrom (file.take m) 0 0 cs ++ post := by
    intro post
    have := htake.displace [] post
    simpa using this
  have hlater := hso'.later (Nat.zero_le m) hm (fun c hcc => by have := hc' c hcc; omega)
  have hfront : ∀ front : List T, StandInOrder (front ++ file.drop m) ((front.length : Int) - m) 0 cs' ∧
      patchedFrom (front ++ file.drop m) ((front.length : Int) - m) 0 cs' = front ++ patchedFrom file 0 m cs' := by
    intro front
    obtain ⟨g1, g2⟩ := hlater.1.replaceFront (Nat.le_refl m) front
    rw [Nat.sub_self, Nat.zero_add] at g1 g2
    have g3 := g1.earlier (Nat.zero_le front.length)
    refine ⟨g3, ?_⟩
    have := (g3.later (Nat.zero_le front.length) (by simp) (fun c hcc => by have := hc' c hcc; omega)).2
    rw [this, g2]
    simp [cut]
  have len1 : (patchedFrom (file.take m) 0 0 cs).length + file.length = m + after.length := by
    have h1 := hs.patched.1
    have h2 := (hpost (file.drop m)).2
    rw [List.take_append_drop] at h2
    rw [h2, List.length_append, List.length_drop] at h1
    omega
  have len2 : m + (patchedFrom file 0 m cs').length = after'.length := by
    have h1 := hs'.patched.1
    have h2 := (hfront (file.take m)).2
    rw [List.take_append_drop, List.length_take, Nat.min_eq_left hm, Int.sub_self] at h2
    rw [h2, List.length_append, List.length_take] at h1
    omega
  have clean : ∀ (l : List T) (ds : List (DiffClump T)), (∀ c ∈ ds, c.WellFormed) → l.length + weight ds < sizeLimit →
      StandInOrder l 0 0 ds → (applyInto q ds l false).run = (.ok { clean := ds.length }, bytesOf (patchedFrom l 0 0 ds)) := by
    intro l ds h1 h2 h3
    have := patching_clean q l 0 0 {} ds h3
    rw [C57_refines q l ds h1 h2]
    simpa using this
  simp only [maxLines] at hsz
  refine ⟨patchedFrom (file.take m) 0 0 cs, patchedFrom file 0 m cs', ?_, ?_, ?_, ?_, ?_⟩
  · have := hpost (file.drop m)
    rw [List.take_append_drop] at this
    rw [clean _ _ hw (by simp only [sizeLimit]; omega) hso, this.2]
  · have := (hfront (file.take m)).2
    rw [List.take_append_drop, List.length_take, Nat.min_eq_left hm, Int.sub_self] at this
    rw [clean _ _ hw' (by simp only [sizeLimit]; omega) hso', this]
  · have := hpost (patchedFrom file 0 m cs')
    rw [clean _ _ hw (by simp only [sizeLimit, List.length_append, List.length_take]; omega) this.1, this.2]
  · intro hl
    have := hfront (patchedFrom (file.take m) 0 0 cs)
    rw [hl, Int.sub_self] at this
    rw [clean _ _ hw' (by simp only [sizeLimit, List.length_append, List.length_drop]; omega) this.1, this.2]
  · intro d c rest he hde hd0 hlim hnear htie hroom
    subst he
    have := hfront (patchedFrom (file.take m) 0 0 cs)
    rw [← hde] at this
    rw [C38_partial q c rest _ d hw' (by simp only [sizeLimit, List.length_append, List.length_drop]; omega) hd0 this.1 hlim
      hnear htie hroom, this.2]

example := C92_partial .debug .debug .release (letters ['a', 'b', 'c', 'd', 'e', 'f', 'g', 'h'])
  (letters ['a', 'X', 'b', 'c', 'd', 'e', 'f', 'g', 'h']) (letters ['a', 'b', 'c', 'd', 'e', 'Y', 'Z', 'g', 'h']) 1 1 (by decide) (by decide)
  (by decide) [⟨(1, 1), ⟨0, letters ['a', 'b']⟩, ⟨0, letters ['a', 'X', 'b']⟩⟩]
  [⟨(1, 1), ⟨4, letters ['e', 'f', 'g']⟩, ⟨4, letters ['e', 'Y', 'Z', 'g']⟩⟩] (by decide +kernel) (by decide +kernel) 3 (by decide)
  (by decide) (by decide)

end

/-- The full statement of C92: in either order the two patches give the same text. -/
def C92_statement : Prop :=
  ∀ (p q : Profile) (file after after' : List Str) (context : Nat) (cs cs' : List (DiffClump Str)), context ≤ 255 →
    file.length + after.length + after'.length ≤ maxLines →
    diffClumps p file after context = .ok cs → diffClumps p file after' context = .ok cs' →
    (∀ c ∈ cs, ∀ c' ∈ cs', c.before.start + c.before.items.length ≤ c'.before.start) →
    ∀ one two : List Str, (applyInto q cs file false).run = (.ok { clean := cs.length }, bytesOf one) →
      (applyInto q cs' file false).run = (.ok { clean := cs'.length }, bytesOf two) →
      (applyInto q cs two false).run.2 = (applyInto q cs' one false).run.2

/-- It fails: in `abxyxyc` the first patch puts two lines `Z` after `a` and the second one puts `N` into the second `xy`.
After the first patch the lines `xy` still stand where the second one expects them, but they are the first ones: `N` is put
there, and the clump counts as clean. -/
theorem C92_refuted : ¬ C92_statement := by
  intro h
  have e1 : diffClumps .release (letters ['a', 'b', 'x', 'y', 'x', 'y', 'c'])
      (letters ['a', 'Z', 'Z', 'b', 'x', 'y', 'x', 'y', 'c']) 1 =
        .ok [⟨(1, 1), ⟨0, letters ['a', 'b']⟩, ⟨0, letters ['a', 'Z', 'Z', 'b']⟩⟩] := by decide +kernel
  have e2 : diffClumps .release (letters ['a', 'b', 'x', 'y', 'x', 'y', 'c'])
      (letters ['a', 'b', 'x', 'y', 'x', 'N', 'y', 'c']) 1 =
        .ok [⟨(1, 1), ⟨4, letters ['x', 'y']⟩, ⟨4, letters ['x', 'N', 'y']⟩⟩] := by decide +kernel
  have := h .release .release _ _ _ 1 _ _ (by decide) (by decide +kernel) e1 e2
    (by
      intro c hc c' hc'
      simp only [List.mem_cons, List.not_mem_nil, or_false] at hc hc'
      subst hc; subst hc'
      decide)
    (letters ['a', 'Z', 'Z', 'b', 'x', 'y', 'x', 'y', 'c']) (letters ['a', 'b', 'x', 'y', 'x', 'N', 'y', 'c'])
    (by decide +kernel) (by decide +kernel)
  revert this
  decide +kernel

/-- Two patches as in `C92_partial`; the second one has moved and is found one line further down. -/
example : ∃ cs cs', diffClumps .debug (letters ['a', 'b', 'c', 'd', 'e', 'f', 'g', 'h'])
      (letters ['a', 'X', 'b', 'c', 'd', 'e', 'f', 'g', 'h']) 1 = .ok cs ∧
    diffClumps .debug (letters ['a', 'b', 'c', 'd', 'e', 'f', 'g', 'h'])
      (letters ['a', 'b', 'c', 'd', 'e', 'Y', 'Z', 'g', 'h']) 1 = .ok cs' ∧
    (∀ c ∈ cs, c.before.start + c.before.items.length ≤ 3) ∧ (∀ c ∈ cs', 3 ≤ c.before.start) ∧
    (applyInto .debug cs (letters ['a', 'b', 'c', 'd', 'e', 'Y', 'Z', 'g', 'h']) false).run =
      (.ok { clean := 1 }, bytesOf (letters ['a', 'X', 'b', 'c', 'd', 'e', 'Y', 'Z', 'g', 'h'])) ∧
    (applyInto .debug cs' (letters ['a', 'X', 'b', 'c', 'd', 'e', 'f', 'g', 'h']) false).run =
      (.ok { fuzzy := 1 }, bytesOf (letters ['a', 'X', 'b', 'c', 'd', 'e', 'Y', 'Z', 'g', 'h'])) :=
  ⟨[⟨(1, 1), ⟨0, letters ['a', 'b']⟩, ⟨0, letters ['a', 'X', 'b']⟩⟩],
    [⟨(1, 1), ⟨4, letters ['e', 'f', 'g']⟩, ⟨4, letters ['e', 'Y', 'Z', 'g']⟩⟩], by decide +kernel⟩

/-! ## Byte patches -/

theorem StandInOrder.length {T : Type} {l : List T} {k : Nat} {cs : List (DiffClump T)} (h : StandInOrder l 0 k cs) :
    (patchedFrom l 0 k cs).length + k ≤ l.length + weight cs := by
  induction cs generalizing k with
  | nil => have h : k ≤ l.length := h; simp [patchedFrom, weight]; omega
  | cons c cs ih =>
    obtain ⟨h1, h2, h3⟩ := h
    have := ih h3
    simp only [Int.add_zero, Int.toNat_natCast] at h1 this
    have := h3.le
    simp [patchedFrom, weight, cut]
    omega

/-- Byte patches, of whatever origin: two patches whose old bytes stand at their places in the file, those of the first one in
the first `m` bytes, those of the second one after them.  The first patch makes `front` of the first `m` bytes and the second
one `back` of the others, and the first one does so too if the second one has been applied before.  The other way round it
is so if `front` is as long as what it replaces. -/
theorem C92_bytes (q : Profile) (file : List UInt8) (cs cs' : List (DiffClump UInt8)) (m : Nat) (hm : m ≤ file.length)
    (hsz : file.length + weight cs + weight cs' < wordSize) (h : StandInOrder file 0 0 cs) (h' : StandInOrder file 0 0 cs')
    (hc : ∀ c ∈ cs, c.before.start < m ∧ c.before.start + c.before.items.length ≤ m)
    (hc' : ∀ c ∈ cs', m ≤ c.before.start ∧ c.before.start < file.length) :
    ∃ front back,
      (byteApplyInto q cs file false).run = (.ok (), front ++ file.drop m) ∧
      (byteApplyInto q cs' file false).run = (.ok (), file.take m ++ back) ∧
      (byteApplyInto q cs (file.take m ++ back) false).run = (.ok (), front ++ back) ∧
      (front.length = m → (byteApplyInto q cs' (front ++ file.drop m) false).run = (.ok (), front ++ back)) := by
  have htake := h.take (Nat.zero_le m) hm fun c hcc => (hc c hcc).2
  have hpost : ∀ post : List UInt8, StandInOrder (file.take m ++ post) 0 0 cs ∧
      patchedFrom (file.take m ++ post) 0 0 cs = patchedFrom (file.take m) 0 0 cs ++ post := by
    intro post
    have := htake.displace [] post
    simpa using this
  have hlater := h'.later (Nat.zero_le m) hm (fun c hcc => by have := hc' c hcc; omega)
  have hfront : ∀ front : List UInt8, front.length = m → StandInOrder (front ++ file.drop m) 0 0 cs' ∧
      patchedFrom (front ++ file.drop m) 0 0 cs' = front ++ patchedFrom file 0 m cs' := by
    intro front hl
    obtain ⟨g1, g2⟩ := hlater.1.replaceFront (Nat.le_refl m) front
    rw [Nat.sub_self, Nat.zero_add, hl, Int.sub_self] at g1 g2
    have g3 := g1.earlier (Nat.zero_le m)
    refine ⟨g3, ?_⟩
    have := (g3.later (Nat.zero_le m) (by simp; omega) (fun c hcc => by have := hc' c hcc; omega)).2
    rw [this, g2]
    simp [cut, ← hl]
  have clean : ∀ (l : List UInt8) (ds : List (DiffClump UInt8)), l.length + weight ds < wordSize → StandInOrder l 0 0 ds →
      (∀ c ∈ ds, c.before.start < l.length) → (byteApplyInto q ds l false).run = (.ok (), patchedFrom l 0 0 ds) :=
    fun l ds h1 h2 h3 => (C60_refines q l ds h1 _ _).2 (bytePatching_clean l 0 ds h2 h3)
  have len1 := htake.length
  have len2 := hlater.1.length
  rw [List.length_take, Nat.min_eq_left hm] at len1
  refine ⟨patchedFrom (file.take m) 0 0 cs, patchedFrom file 0 m cs', ?_, ?_, ?_, ?_⟩
  · have := hpost (file.drop m)
    rw [List.take_append_drop] at this
    rw [clean _ _ (by omega) h fun c hcc => by have := hc c hcc; omega, this.2]
  · have := hfront (file.take m) (by simp [hm])
    rw [List.take_append_drop] at this
    rw [clean _ _ (by omega) h' fun c hcc => (hc' c hcc).2, this.2]
  · have := hpost (patchedFrom file 0 m cs')
    rw [clean _ _ (by simp only [List.length_append, List.length_take]; omega) this.1
      fun c hcc => by have := hc c hcc; simp only [List.length_append, List.length_take]; omega, this.2]
  · intro hl
    have := hfront _ hl
    rw [clean _ _ (by simp only [List.length_append, List.length_drop]; omega) this.1
      fun c hcc => by have := hc' c hcc; simp only [List.length_append, List.length_drop]; omega, this.2]

/-- Two patches to `1 2 3 4 5 6`. -/
def onePatch : List (DiffClump UInt8) := [⟨(1, 0), ⟨0, [1, 2]⟩, ⟨0, [1, 7]⟩⟩]
def otherPatch : List (DiffClump UInt8) := [⟨(1, 0), ⟨3, [4, 5]⟩, ⟨3, [4, 8, 9]⟩⟩]

example : (byteApplyInto .debug onePatch [1, 2, 3, 4, 8, 9, 6] false).run = (.ok (), [1, 7, 3, 4, 8, 9, 6]) ∧
    (byteApplyInto .debug otherPatch [1, 7, 3, 4, 5, 6] false).run = (.ok (), [1, 7, 3, 4, 8, 9, 6]) := by decide +kernel
example := C92_bytes .debug [1, 2, 3, 4, 5, 6] onePatch otherPatch 3 (by decide) (by decide)
  ⟨by decide, (standsB_iff _ _ _).1 (by decide +kernel), by show _ ≤ _; decide⟩ ⟨by decide, (standsB_iff _ _ _).1 (by decide +kernel), by show _ ≤ _; decide⟩
  (by decide) (by decide)
/-- That the length is kept is needed: bytes that have moved are not found, and nothing is said about it. -/
example : (byteApplyInto .debug [⟨(1, 0), ⟨0, [1, 2]⟩, ⟨0, [1, 7, 7]⟩⟩] [1, 2, 3, 4, 5, 6] false).run = (.ok (), [1, 7, 7, 3, 4, 5, 6]) ∧
    (byteApplyInto .debug otherPatch [1, 7, 7, 3, 4, 5, 6] false).run = (.ok (), [1, 7, 7, 3, 4, 5, 6]) := by decide +kernel

end PwDiff
