import Verif.Props.Reading

/-!
# Changes written on their own (C89)

`TextChangeDiff` and `ByteChangeDiff` have a `to_writer` and a `from_reader` of their own, whose files differ from those of
`Diff`: nothing in them says of which kind they are.
-/

namespace PwDiff

open Json

theorem fromReader_iff {T : Type} {convert : Json → Option T} {P : T → Json → Prop} (h : ∀ j x, convert j = some x ↔ P x j)
    (data : List UInt8) (x : T) : Json.fromReader convert ⟨data, false⟩ = .ok x ↔
      ∃ (s : Str) (j : Json), data = s.bytes ∧ IsDocument j s ∧ P x j := by
  unfold Json.fromReader
  simp only [Bool.false_eq_true, if_false]
  constructor
  · intro hr
    split at hr
    · next y hy =>
      cases hr
      obtain ⟨j, hj, hx⟩ := Option.bind_eq_some_iff.1 hy
      obtain ⟨s, hs, hj⟩ := Option.bind_eq_some_iff.1 hj
      exact ⟨s, j, (decodeUtf8_eq_some.1 hs).symm, (readDocument_iff ..).1 hj, (h ..).1 hx⟩
    · cases hr
  · rintro ⟨s, j, rfl, h1, h2⟩
    rw [decodeUtf8_bytes, Option.bind_some, (readDocument_iff ..).2 h1, Option.bind_some, (h ..).2 h2]

theorem isTextChange_iff (j : Json) (d : TextChangeDiff) : toTextChangeDiff j = some d ↔ IsTextChange d j := by
  unfold IsTextChange
  rw [← toDiff_iff]
  show _ ↔ (toTextChangeDiff j).map Diff.textChange = _
  rw [Option.map_eq_some_iff]
  constructor
  · exact fun h => ⟨d, h, rfl⟩
  · rintro ⟨e, he, h⟩
    cases h
    exact he

theorem isByteChange_iff (j : Json) (d : ByteChangeDiff) : toByteChangeDiff j = some d ↔ IsByteChange d j := by
  unfold IsByteChange
  rw [← toDiff_iff]
  show _ ↔ (toByteChangeDiff j).map Diff.byteChange = _
  rw [Option.map_eq_some_iff]
  constructor
  · exact fun h => ⟨d, h, rfl⟩
  · rintro ⟨e, he, h⟩
    cases h
    exact he

/-- What the readers of the two kinds accept. -/
theorem C89_language (data : List UInt8) :
    (∀ d, TextChangeDiff.fromReader ⟨data, false⟩ = .ok d ↔
      ∃ (s : Str) (j : Json), data = s.bytes ∧ IsDocument j s ∧ IsTextChange d j) ∧
    (∀ d, ByteChangeDiff.fromReader ⟨data, false⟩ = .ok d ↔
      ∃ (s : Str) (j : Json), data = s.bytes ∧ IsDocument j s ∧ IsByteChange d j) :=
  ⟨fun d => fromReader_iff isTextChange_iff data d, fun d => fromReader_iff isByteChange_iff data d⟩

theorem textChange_written (d : TextChangeDiff) (hd : ∀ c ∈ d.clumps, c.InRange) (h1 : IsUtf8 d.beforePath) (h2 : IsUtf8 d.afterPath) :
    d.toWriter.run = (.ok (), (Json.text 0 (ofTextChangeDiff d)).bytes) ∧
    readDocument (Json.text 0 (ofTextChangeDiff d)) = some (ofTextChangeDiff d) ∧
    toTextChangeDiff (ofTextChangeDiff d) = some d := by
  have hp : ∀ path ∈ (Diff.textChange d).paths, IsUtf8 path := by
    intro path h
    rcases List.mem_cons.1 h with rfl | h
    · exact h1
    · rw [List.mem_singleton.1 h]; exact h2
  have hs : Storable (ofTextChangeDiff d) := (storable_ofDiff (.textChange d) hd hp).1
  refine ⟨?_, readDocument_text _ hs, ?_⟩
  · unfold TextChangeDiff.toWriter
    rw [write_eq 0 _ hs]
    rfl
  · have := toDiff_ofDiff (.textChange d) hd hp
    change (toTextChangeDiff (ofTextChangeDiff d)).map Diff.textChange = _ at this
    obtain ⟨e, he, h⟩ := Option.map_eq_some_iff.1 this
    cases h
    exact he

theorem byteChange_written (d : ByteChangeDiff) (hd : ∀ c ∈ d.clumps, c.InRange) (h1 : IsUtf8 d.beforePath) (h2 : IsUtf8 d.afterPath) :
    d.toWriter.run = (.ok (), (Json.text 0 (ofByteChangeDiff d)).bytes) ∧
    readDocument (Json.text 0 (ofByteChangeDiff d)) = some (ofByteChangeDiff d) ∧
    toByteChangeDiff (ofByteChangeDiff d) = some d := by
  have hp : ∀ path ∈ (Diff.byteChange d).paths, IsUtf8 path := by
    intro path h
    rcases List.mem_cons.1 h with rfl | h
    · exact h1
    · rw [List.mem_singleton.1 h]; exact h2
  have hs : Storable (ofByteChangeDiff d) := (storable_ofDiff (.byteChange d) hd hp).1
  refine ⟨?_, readDocument_text _ hs, ?_⟩
  · unfold ByteChangeDiff.toWriter
    rw [write_eq 0 _ hs]
    rfl
  · have := toDiff_ofDiff (.byteChange d) hd hp
    change (toByteChangeDiff (ofByteChangeDiff d)).map Diff.byteChange = _ at this
    obtain ⟨e, he, h⟩ := Option.map_eq_some_iff.1 this
    cases h
    exact he

theorem fromReader_text {T : Type} (convert : Json → Option T) {s : Str} {j : Json} (hj : readDocument s = some j) :
    Json.fromReader convert ⟨s.bytes, false⟩ = match convert j with | some x => .ok x | none => .ioErr := by
  unfold Json.fromReader
  simp only [Bool.false_eq_true, if_false]
  rw [decodeUtf8_bytes, Option.bind_some, hj, Option.bind_some]
  cases convert j <;> rfl

/-- A change of a text file that is written is read as the same change. -/
theorem C89_text (d : TextChangeDiff) (hd : ∀ c ∈ d.clumps, c.InRange) (h1 : IsUtf8 d.beforePath) (h2 : IsUtf8 d.afterPath) :
    ∃ out, d.toWriter.run = (.ok (), out) ∧ TextChangeDiff.fromReader ⟨out, false⟩ = .ok d := by
  obtain ⟨a, b, c⟩ := textChange_written d hd h1 h2
  refine ⟨_, a, ?_⟩
  unfold TextChangeDiff.fromReader
  rw [fromReader_text _ b, c]

/-- A change of a binary file that is written is read as the same change. -/
theorem C89_bytes (d : ByteChangeDiff) (hd : ∀ c ∈ d.clumps, c.InRange) (h1 : IsUtf8 d.beforePath) (h2 : IsUtf8 d.afterPath) :
    ∃ out, d.toWriter.run = (.ok (), out) ∧ ByteChangeDiff.fromReader ⟨out, false⟩ = .ok d := by
  obtain ⟨a, b, c⟩ := byteChange_written d hd h1 h2
  refine ⟨_, a, ?_⟩
  unfold ByteChangeDiff.fromReader
  rw [fromReader_text _ b, c]

/-- No file is both a `Diff` and one of the two kinds of changes on its own: `pw_patch` refuses the files of the latter. -/
theorem C89_disjoint (data : List UInt8) (d : Diff) (h : Diff.fromReader ⟨data, false⟩ = .ok d) :
    (∀ e, TextChangeDiff.fromReader ⟨data, false⟩ ≠ .ok e) ∧ ∀ e, ByteChangeDiff.fromReader ⟨data, false⟩ ≠ .ok e := by
  obtain ⟨s, j, rfl, hj, hd⟩ := (C88_language data d).1 h
  have key : ∀ {a b c : Str × Json} {l}, a.1 ≠ b.1 → ¬ IsStruct (a :: b :: c :: l) j := by
    intro a b c l hab hs
    obtain ⟨k, v, rfl⟩ : ∃ k v, j = .obj [(k, v)] := by cases hd <;> exact ⟨_, _, rfl⟩
    rcases hs with ⟨fs, e, hs⟩ | e
    · cases e
      obtain ⟨p1, q1, e1, -⟩ := hs a (by simp)
      obtain ⟨p2, q2, e2, -⟩ := hs b (by simp)
      have m1 : a ∈ [(k, v)] := by rw [e1]; simp
      have m2 : b ∈ [(k, v)] := by rw [e2]; simp
      rw [List.mem_singleton] at m1 m2
      exact hab (by rw [m1, m2])
    · cases e
  constructor
  · intro e he
    obtain ⟨s', j', hs, hj', hd'⟩ := ((C89_language _).1 e).1 he
    have : s' = s := by
      have := decodeUtf8_bytes s
      rw [hs, decodeUtf8_bytes] at this
      exact Option.some.inj this
    subst this
    obtain rfl := (C88_unambiguous _ _ _ d d).1 hj' hj
    cases hd' with
    | textChange h _ _ _ => exact key (by simp) h
  · intro e he
    obtain ⟨s', j', hs, hj', hd'⟩ := ((C89_language _).2 e).1 he
    have : s' = s := by
      have := decodeUtf8_bytes s
      rw [hs, decodeUtf8_bytes] at this
      exact Option.some.inj this
    subst this
    obtain rfl := (C88_unambiguous _ _ _ d d).1 hj' hj
    cases hd' with
    | byteChange h _ _ _ => exact key (by simp) h

theorem utf8_of_written {d : Json} {out : List UInt8} (h : (write 0 d).run = (.ok (), out)) : Clean d := by
  obtain ⟨o, r, e, ⟨h1, -⟩ | ⟨-, rfl⟩⟩ := ends_write 0 d
  · exact h1
  · rw [e] at h
    cases congrArg Prod.fst h

/-- A change of a text file that is written is never read as a change of a binary file. -/
theorem C89_textNotBytes (d : TextChangeDiff) (hd : ∀ c ∈ d.clumps, c.InRange) (out : List UInt8)
    (h : d.toWriter.run = (.ok (), out)) : ByteChangeDiff.fromReader ⟨out, false⟩ = .ioErr := by
  have hc := utf8_of_written h
  simp only [ofTextChangeDiff, Clean, CleanFields, clean_path] at hc
  obtain ⟨a, b, -⟩ := textChange_written d hd hc.1 hc.2.1
  rw [h] at a
  cases a
  unfold ByteChangeDiff.fromReader
  rw [fromReader_text _ b]
  have : toByteChangeDiff (ofTextChangeDiff d) = none := by
    have hf : fields [kBeforePath, kAfterPath, kCompressed, kClumps] (ofTextChangeDiff d) = none := rfl
    unfold toByteChangeDiff
    rw [hf]
    rfl
  rw [this]

theorem toClump_ofByte (c : DiffClump UInt8) (hc : c.InRange) (e : DiffClump Str) : toClump toStr (ofClump ofByte c) = some e ↔
    (c.before.items = [] ∧ c.after.items = []) ∧ e = ⟨c.contextLengths, ⟨c.before.start, []⟩, ⟨c.after.start, []⟩⟩ := by
  have hl : ∀ (l : List UInt8) (r : List Str), toList toStr (.arr (l.map ofByte)) = some r ↔ l = [] ∧ r = [] := by
    intro l r
    cases l with
    | nil =>
      show some [] = some r ↔ _
      simp [eq_comm]
    | cons x l =>
      have : toList toStr (.arr ((x :: l).map ofByte)) = none := by
        show List.mapM toStr (ofByte x :: l.map ofByte) = none
        rw [List.mapM_cons]
        rfl
      rw [this]
      simp
  have hs : ∀ (s : Snippet UInt8) (r : Snippet Str), s.start < wordSize → (toSnippet toStr (ofSnippet ofByte s) = some r ↔
      s.items = [] ∧ r = ⟨s.start, []⟩) := by
    intro s r hw
    have h1 : fields [kStart, kItems] (ofSnippet ofByte s) = some [.nat s.start, .arr (s.items.map ofByte)] := rfl
    unfold toSnippet
    rw [h1]
    simp only [Option.bind_eq_bind, Option.bind_some, toNatBelow, if_pos hw, Option.bind_eq_some_iff, Option.pure_def,
      Option.some.injEq, hl]
    constructor
    · rintro ⟨l, ⟨h2, rfl⟩, rfl⟩
      exact ⟨h2, rfl⟩
    · rintro ⟨h2, rfl⟩
      exact ⟨[], ⟨h2, rfl⟩, rfl⟩
  obtain ⟨ha, hb, h2, h3⟩ := hc
  have h1 : fields [kContextLengths, kBefore, kAfter] (ofClump ofByte c) =
    some [.arr [.nat c.contextLengths.1, .nat c.contextLengths.2], ofSnippet ofByte c.before, ofSnippet ofByte c.after] := rfl
  unfold toClump
  rw [h1]
  simp only [Option.bind_eq_bind, Option.bind_some, Option.pure_def, toPair, toNatBelow, if_pos ha, if_pos hb,
    Option.bind_eq_some_iff, Option.some.injEq, hs _ _ h2, hs _ _ h3]
  constructor
  · rintro ⟨_, ⟨h4, rfl⟩, _, ⟨h5, rfl⟩, rfl⟩
    exact ⟨⟨h4, h5⟩, rfl⟩
  · rintro ⟨⟨h4, h5⟩, rfl⟩
    exact ⟨_, ⟨h4, rfl⟩, _, ⟨h5, rfl⟩, rfl⟩

theorem toClumps_ofByte (l : List (DiffClump UInt8)) (hl : ∀ c ∈ l, c.InRange) (r : List (DiffClump Str)) :
    toList (toClump toStr) (.arr (l.map (ofClump ofByte))) = some r ↔
      (∀ c ∈ l, c.before.items = [] ∧ c.after.items = []) ∧
        r = l.map fun c => ⟨c.contextLengths, ⟨c.before.start, []⟩, ⟨c.after.start, []⟩⟩ := by
  show List.mapM _ _ = some r ↔ _
  induction l generalizing r with
  | nil =>
    show some [] = some r ↔ _
    simp [eq_comm]
  | cons c l ih =>
    have ih := fun r => ih (fun c hc => hl c (by simp [hc])) r
    rw [List.map_cons, List.mapM_cons]
    simp only [Option.bind_eq_bind, Option.bind_eq_some_iff, Option.pure_def, Option.some.injEq, ih,
      toClump_ofByte c (hl c (by simp))]
    constructor
    · rintro ⟨_, ⟨h1, rfl⟩, _, ⟨h2, rfl⟩, rfl⟩
      refine ⟨?_, rfl⟩
      intro d hd
      rcases List.mem_cons.1 hd with rfl | hd
      · exact h1
      · exact h2 d hd
    · rintro ⟨h, rfl⟩
      exact ⟨_, ⟨h c (by simp), rfl⟩, _, ⟨fun d hd => h d (by simp [hd]), rfl⟩, rfl⟩

/-- A change of a binary file that is written is read as a change of a text file exactly if it contains no byte at all; it
is then one with the same clumps (and the information whether it is compressed is lost). -/
theorem C89_bytesAsText (d : ByteChangeDiff) (hd : ∀ c ∈ d.clumps, c.InRange) (out : List UInt8)
    (h : d.toWriter.run = (.ok (), out)) (e : TextChangeDiff) :
    TextChangeDiff.fromReader ⟨out, false⟩ = .ok e ↔
      (∀ c ∈ d.clumps, c.before.items = [] ∧ c.after.items = []) ∧
      e = ⟨d.beforePath, d.afterPath, d.clumps.map fun c => ⟨c.contextLengths, ⟨c.before.start, []⟩, ⟨c.after.start, []⟩⟩⟩ := by
  have hc := utf8_of_written h
  simp only [ofByteChangeDiff, Clean, CleanFields, clean_path] at hc
  obtain ⟨a, b, -⟩ := byteChange_written d hd hc.1 hc.2.1
  rw [h] at a
  cases a
  unfold TextChangeDiff.fromReader
  rw [fromReader_text _ b]
  have hf : fields [kBeforePath, kAfterPath, kClumps] (ofByteChangeDiff d) =
    some [ofPath d.beforePath, ofPath d.afterPath, .arr (d.clumps.map (ofClump ofByte))] := rfl
  have key : toTextChangeDiff (ofByteChangeDiff d) = some e ↔ (∀ c ∈ d.clumps, c.before.items = [] ∧ c.after.items = []) ∧
      e = ⟨d.beforePath, d.afterPath, d.clumps.map fun c => ⟨c.contextLengths, ⟨c.before.start, []⟩, ⟨c.after.start, []⟩⟩⟩ := by
    unfold toTextChangeDiff
    rw [hf]
    simp only [Option.bind_eq_bind, Option.bind_some]
    rw [toPath_ofPath hc.1, toPath_ofPath hc.2.1]
    simp only [Option.bind_some, Option.bind_eq_some_iff, Option.pure_def, Option.some.injEq, toClumps_ofByte _ hd]
    constructor
    · rintro ⟨_, ⟨h1, rfl⟩, rfl⟩
      exact ⟨h1, rfl⟩
    · rintro ⟨h1, rfl⟩
      exact ⟨_, ⟨h1, rfl⟩, rfl⟩
  rw [← key]
  cases toTextChangeDiff (ofByteChangeDiff d) <;> simp

/-- Reading never panics or hangs: what is not accepted is an error, and so is every failure of the reader. -/
theorem C89_error (r : Reader) :
    ((∃ d, TextChangeDiff.fromReader r = .ok d ∧ r.fails = false) ∨ TextChangeDiff.fromReader r = .ioErr) ∧
    ((∃ d, ByteChangeDiff.fromReader r = .ok d ∧ r.fails = false) ∨ ByteChangeDiff.fromReader r = .ioErr) := by
  have : ∀ {T : Type} (convert : Json → Option T),
      (∃ d, Json.fromReader convert r = .ok d ∧ r.fails = false) ∨ Json.fromReader convert r = .ioErr := by
    intro T convert
    unfold Json.fromReader
    by_cases h : r.fails = true
    · rw [if_pos h]
      exact .inr rfl
    · rw [if_neg h]
      split
      · exact .inl ⟨_, rfl, by simpa using h⟩
      · exact .inr rfl
  exact ⟨this _, this _⟩

/-- A change of a text file and one of a binary file to which the theorems apply. -/
example : (∀ c ∈ ([⟨(1, 0), ⟨0, [['a', '\n'], ['b']]⟩, ⟨0, [['a', '\n']]⟩⟩] : List (DiffClump Str)), c.InRange) ∧ IsUtf8 [65] ∧
    (ByteChangeDiff.toWriter ⟨[65], [66], false, [⟨(0, 0), ⟨3, [0]⟩, ⟨3, []⟩⟩]⟩).run.1 = .ok () ∧
    (ByteChangeDiff.toWriter ⟨[65], [66], false, []⟩).run.1 = .ok () := by
  refine ⟨?_, ⟨['A'], by decide⟩, by decide +kernel, by decide +kernel⟩
  intro c hc
  rw [List.mem_singleton.1 hc]
  simp [DiffClump.InRange, wordSize]

example := C89_text ⟨[65], [66], [⟨(1, 0), ⟨0, [['a', '\n'], ['b']]⟩, ⟨0, [['a', '\n']]⟩⟩]⟩
  (by intro c hc; rw [List.mem_singleton.1 hc]; simp [DiffClump.InRange, wordSize]) ⟨['A'], by decide⟩ ⟨['B'], by decide⟩
example := C89_bytes ⟨[65], [66], true, [⟨(1, 0), ⟨0, [7, 8]⟩, ⟨0, [7]⟩⟩]⟩
  (by intro c hc; rw [List.mem_singleton.1 hc]; simp [DiffClump.InRange, wordSize]) ⟨['A'], by decide⟩ ⟨['B'], by decide⟩
example (out : List UInt8) (h : (TextChangeDiff.toWriter ⟨[65], [66], []⟩).run = (.ok (), out)) :=
  C89_textNotBytes ⟨[65], [66], []⟩ nofun out h
example (out : List UInt8) (h : (ByteChangeDiff.toWriter ⟨[65], [66], false, [⟨(0, 0), ⟨3, [0]⟩, ⟨3, []⟩⟩]⟩).run = (.ok (), out)) :=
  C89_bytesAsText ⟨[65], [66], false, [⟨(0, 0), ⟨3, [0]⟩, ⟨3, []⟩⟩]⟩
    (by intro c hc; rw [List.mem_singleton.1 hc]; simp [DiffClump.InRange, wordSize]) out h

end PwDiff
