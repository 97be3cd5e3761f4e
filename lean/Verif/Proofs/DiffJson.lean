import Verif.Proofs.Json

/-! # Diffs survive being written and read -/

namespace PwDiff

/-- The values of a clump fit the Rust types `usize` and `u8`. -/
def DiffClump.InRange {T : Type} (c : DiffClump T) : Prop :=
  c.contextLengths.1 < 256 ∧ c.contextLengths.2 < 256 ∧ c.before.start < wordSize ∧ c.after.start < wordSize

/-- The values of a diff fit the Rust types of its fields. -/
def Diff.InRange : Diff → Prop
  | .textChange d => ∀ c ∈ d.clumps, c.InRange
  | .byteChange d => ∀ c ∈ d.clumps, c.InRange
  | _ => True

/-- The paths recorded in a diff. -/
def Diff.paths : Diff → List Path
  | .textChange d => [d.beforePath, d.afterPath]
  | .byteChange d => [d.beforePath, d.afterPath]
  | .textAdd d | .textRemove d => [d.path]
  | .byteAdd d | .byteRemove d => [d.path]

/-- A byte string is the encoding of a text. -/
def IsUtf8 (bs : List UInt8) : Prop := ∃ s : Str, s.bytes = bs

theorem ofPath_utf8 {path : Path} {s : Str} (h : s.bytes = path) : Json.ofPath path = .str s := by
  unfold Json.ofPath
  rw [decodeUtf8_eq_some.2 h]

theorem ofPath_not_utf8 {path : Path} (h : ¬ IsUtf8 path) : Json.ofPath path = .invalid := by
  unfold Json.ofPath
  cases hd : decodeUtf8 path with
  | none => rfl
  | some s => exact absurd ⟨s, decodeUtf8_eq_some.1 hd⟩ h

namespace Json

theorem toPath_ofPath {path : Path} (h : IsUtf8 path) : toPath (ofPath path) = some path := by
  obtain ⟨s, rfl⟩ := h
  rw [ofPath_utf8 rfl]
  rfl

theorem mapM_map {α β : Type} (f : α → Json) (g : Json → Option β) (h : α → β) (l : List α)
    (hl : ∀ x ∈ l, g (f x) = some (h x)) : (l.map f).mapM g = some (l.map h) := by
  induction l with
  | nil => rfl
  | cons x l ih =>
    rw [List.map_cons, List.mapM_cons, hl x (by simp), ih (fun y hy => hl y (by simp [hy]))]
    rfl

theorem toList_map {T : Type} (f : T → Json) (g : Json → Option T) (l : List T) (h : ∀ x ∈ l, g (f x) = some x) :
    toList g (.arr (l.map f)) = some l := by
  show (l.map f).mapM g = some l
  rw [mapM_map f g id l h, List.map_id]

theorem toByte_ofByte (b : UInt8) : toByte (ofByte b) = some b := by
  show (if b.toNat < 256 then some b.toNat else none).map UInt8.ofNat = some b
  rw [if_pos (by have := b.toNat_lt; omega)]
  simp

theorem toSnippet_ofSnippet {T : Type} (f : T → Json) (g : Json → Option T) (hg : ∀ x, g (f x) = some x) (s : Snippet T)
    (hs : s.start < wordSize) : toSnippet g (ofSnippet f s) = some s := by
  have h1 : fields [kStart, kItems] (ofSnippet f s) = some [.nat s.start, .arr (s.items.map f)] := rfl
  unfold toSnippet
  rw [h1]
  simp only [Option.bind_eq_bind, Option.bind_some]
  rw [toList_map f g _ (fun x _ => hg x)]
  simp only [toNatBelow, if_pos hs, Option.bind_some, Option.pure_def]

theorem toClump_ofClump {T : Type} (f : T → Json) (g : Json → Option T) (hg : ∀ x, g (f x) = some x) (c : DiffClump T)
    (hc : c.InRange) : toClump g (ofClump f c) = some c := by
  have h1 : fields [kContextLengths, kBefore, kAfter] (ofClump f c) =
    some [.arr [.nat c.contextLengths.1, .nat c.contextLengths.2], ofSnippet f c.before, ofSnippet f c.after] := rfl
  obtain ⟨ha, hb, h2, h3⟩ := hc
  unfold toClump
  rw [h1]
  simp only [Option.bind_eq_bind, Option.bind_some, Option.pure_def, toPair, toNatBelow, if_pos ha, if_pos hb]
  rw [toSnippet_ofSnippet f g hg _ h2, toSnippet_ofSnippet f g hg _ h3]
  rfl

theorem toDiff_ofDiff (d : Diff) (hd : d.InRange) (hp : ∀ path ∈ d.paths, IsUtf8 path) : toDiff (ofDiff d) = some d := by
  cases d with
  | textChange d =>
    have h1 : toDiff (ofDiff (.textChange d)) = (toTextChangeDiff (.obj [(kBeforePath, ofPath d.beforePath),
      (kAfterPath, ofPath d.afterPath), (kClumps, .arr (d.clumps.map (ofClump .str)))])).map .textChange := rfl
    have h2 : ∀ a b c, fields [kBeforePath, kAfterPath, kClumps] (.obj [(kBeforePath, a), (kAfterPath, b), (kClumps, c)]) =
      some [a, b, c] := fun _ _ _ => rfl
    rw [h1]
    unfold toTextChangeDiff
    rw [h2]
    simp only [Option.bind_eq_bind, Option.bind_some, Option.pure_def]
    rw [toPath_ofPath (hp _ (by simp [Diff.paths])), toPath_ofPath (hp _ (by simp [Diff.paths])),
      toList_map _ _ _ (fun c hc => toClump_ofClump .str toStr (fun _ => rfl) c (hd c hc))]
    rfl
  | byteChange d =>
    have h1 : toDiff (ofDiff (.byteChange d)) = (toByteChangeDiff (.obj [(kBeforePath, ofPath d.beforePath),
      (kAfterPath, ofPath d.afterPath), (kCompressed, .bool d.compressed),
      (kClumps, .arr (d.clumps.map (ofClump ofByte)))])).map .byteChange := rfl
    have h2 : ∀ a b c e, fields [kBeforePath, kAfterPath, kCompressed, kClumps] (.obj [(kBeforePath, a), (kAfterPath, b),
      (kCompressed, c), (kClumps, e)]) = some [a, b, c, e] := fun _ _ _ _ => rfl
    rw [h1]
    unfold toByteChangeDiff
    rw [h2]
    simp only [Option.bind_eq_bind, Option.bind_some, Option.pure_def]
    rw [toPath_ofPath (hp _ (by simp [Diff.paths])), toPath_ofPath (hp _ (by simp [Diff.paths])),
      toList_map _ _ _ (fun c hc => toClump_ofClump ofByte toByte toByte_ofByte c (hd c hc))]
    rfl
  | textAdd d =>
    have h1 : toDiff (ofDiff (.textAdd d)) = (toPathAndLines (.obj [(kPath, ofPath d.path),
      (kLines, .arr (d.lines.map .str))])).map .textAdd := rfl
    have h2 : ∀ a b, fields [kPath, kLines] (.obj [(kPath, a), (kLines, b)]) = some [a, b] := fun _ _ => rfl
    rw [h1]
    unfold toPathAndLines
    rw [h2]
    simp only [Option.bind_eq_bind, Option.bind_some, Option.pure_def]
    rw [toPath_ofPath (hp _ (by simp [Diff.paths])), toList_map .str toStr _ (fun c _ => rfl)]
    rfl
  | textRemove d =>
    have h1 : toDiff (ofDiff (.textRemove d)) = (toPathAndLines (.obj [(kPath, ofPath d.path),
      (kLines, .arr (d.lines.map .str))])).map .textRemove := rfl
    have h2 : ∀ a b, fields [kPath, kLines] (.obj [(kPath, a), (kLines, b)]) = some [a, b] := fun _ _ => rfl
    rw [h1]
    unfold toPathAndLines
    rw [h2]
    simp only [Option.bind_eq_bind, Option.bind_some, Option.pure_def]
    rw [toPath_ofPath (hp _ (by simp [Diff.paths])), toList_map .str toStr _ (fun c _ => rfl)]
    rfl
  | byteAdd d =>
    have h1 : toDiff (ofDiff (.byteAdd d)) = (toPathAndBytes (.obj [(kPath, ofPath d.path), (kCompressed, .bool d.compressed),
      (kBytes, .arr (d.bytes.map ofByte))])).map .byteAdd := rfl
    have h2 : ∀ a b c, fields [kPath, kCompressed, kBytes] (.obj [(kPath, a), (kCompressed, b), (kBytes, c)]) =
      some [a, b, c] := fun _ _ _ => rfl
    rw [h1]
    unfold toPathAndBytes
    rw [h2]
    simp only [Option.bind_eq_bind, Option.bind_some, Option.pure_def]
    rw [toPath_ofPath (hp _ (by simp [Diff.paths])), toList_map _ _ _ (fun c _ => toByte_ofByte c)]
    rfl
  | byteRemove d =>
    have h1 : toDiff (ofDiff (.byteRemove d)) = (toPathAndBytes (.obj [(kPath, ofPath d.path),
      (kCompressed, .bool d.compressed), (kBytes, .arr (d.bytes.map ofByte))])).map .byteRemove := rfl
    have h2 : ∀ a b c, fields [kPath, kCompressed, kBytes] (.obj [(kPath, a), (kCompressed, b), (kBytes, c)]) =
      some [a, b, c] := fun _ _ _ => rfl
    rw [h1]
    unfold toPathAndBytes
    rw [h2]
    simp only [Option.bind_eq_bind, Option.bind_some, Option.pure_def]
    rw [toPath_ofPath (hp _ (by simp [Diff.paths])), toList_map _ _ _ (fun c _ => toByte_ofByte c)]
    rfl

/-! ## Which diffs can be written -/

theorem storableItems_map {T : Type} (f : T → Json) (l : List T) (h : ∀ x ∈ l, Storable (f x)) :
    StorableItems (l.map f) := by
  induction l with
  | nil => simp [StorableItems]
  | cons x l ih =>
    simp only [List.map_cons, StorableItems]
    exact ⟨h x (by simp), ih (fun y hy => h y (by simp [hy]))⟩

theorem storable_path {path : Path} (h : IsUtf8 path) : Storable (ofPath path) := by
  obtain ⟨s, rfl⟩ := h
  rw [ofPath_utf8 rfl]
  simp [Storable]

theorem storable_byte (b : UInt8) : Storable (ofByte b) := by
  have := b.toNat_lt
  simp only [ofByte, Storable, wordSize]
  omega

theorem storable_snippet {T : Type} (f : T → Json) (hf : ∀ x, Storable (f x)) (s : Snippet T)
    (hs : s.start < wordSize) : Storable (ofSnippet f s) := by
  simp only [ofSnippet, Storable, StorableFields]
  exact ⟨hs, storableItems_map _ _ (fun x _ => hf x), trivial⟩

theorem storable_clump {T : Type} (f : T → Json) (hf : ∀ x, Storable (f x)) (c : DiffClump T) (hc : c.InRange) :
    Storable (ofClump f c) := by
  obtain ⟨h1, h2, h3, h4⟩ := hc
  simp only [ofClump, Storable, StorableFields, StorableItems]
  refine ⟨⟨by simp only [wordSize]; omega, by simp only [wordSize]; omega, trivial⟩, ?_, ?_, trivial⟩
  · exact storable_snippet f hf _ h3
  · exact storable_snippet f hf _ h4

theorem storable_ofDiff (d : Diff) (hd : d.InRange) (hp : ∀ path ∈ d.paths, IsUtf8 path) : Storable (ofDiff d) := by
  cases d with
  | textChange d =>
    simp only [ofDiff, Storable, StorableFields]
    refine ⟨⟨storable_path (hp _ (by simp [Diff.paths])), storable_path (hp _ (by simp [Diff.paths])),
      storableItems_map _ _ (fun c hc => ?_), trivial⟩, trivial⟩
    exact storable_clump .str (fun x => by simp [Storable]) c (hd c hc)
  | byteChange d =>
    simp only [ofDiff, Storable, StorableFields]
    refine ⟨⟨storable_path (hp _ (by simp [Diff.paths])), storable_path (hp _ (by simp [Diff.paths])),
      trivial, storableItems_map _ _ (fun c hc => ?_), trivial⟩, trivial⟩
    exact storable_clump ofByte storable_byte c (hd c hc)
  | textAdd d | textRemove d =>
    simp only [ofDiff, Storable, StorableFields]
    exact ⟨⟨storable_path (hp _ (by simp [Diff.paths])),
      storableItems_map _ _ (fun c hc => by simp [Storable]), trivial⟩, trivial⟩
  | byteAdd d | byteRemove d =>
    simp only [ofDiff, Storable, StorableFields]
    exact ⟨⟨storable_path (hp _ (by simp [Diff.paths])), trivial,
      storableItems_map _ _ (fun c hc => storable_byte c), trivial⟩, trivial⟩

end Json

/-- Writing then reading. -/
theorem toWriter_fromReader (d : Diff) (hd : d.InRange) (hp : ∀ path ∈ d.paths, IsUtf8 path) :
    d.toWriter = WM.emit (Json.text 0 (Json.ofDiff d)).bytes (.ok ()) ∧
    Diff.fromReader ⟨(Json.text 0 (Json.ofDiff d)).bytes, false⟩ = .ok d := by
  have hs := Json.storable_ofDiff d hd hp
  refine ⟨Json.write_eq 0 _ hs, ?_⟩
  unfold Diff.fromReader
  simp only [Bool.false_eq_true, if_false]
  rw [decodeUtf8_bytes]
  simp only
  rw [Json.readDocument_text _ hs]
  simp only
  rw [Json.toDiff_ofDiff d hd hp]

/-! ## Paths that are not UTF-8 -/

namespace Json

mutual
/-- No part of the value fails to be written. -/
def Clean : Json → Prop
  | .arr xs => CleanItems xs
  | .obj xs => CleanFields xs
  | .number => False
  | .invalid => False
  | _ => True

def CleanItems : List Json → Prop
  | [] => True
  | x :: xs => Clean x ∧ CleanItems xs

def CleanFields : List (Str × Json) → Prop
  | [] => True
  | (_, x) :: xs => Clean x ∧ CleanFields xs
end

/-- A writing action that succeeds if `P` holds and fails with an error otherwise. -/
def Ends (m : WM Unit) (P : Prop) : Prop := ∃ out r, m = WM.emit out r ∧ ((P ∧ r = .ok ()) ∨ (¬ P ∧ r = .ioErr))

theorem ends_put (s : Str) : Ends (put s) True := ⟨_, _, put_eq s, .inl ⟨trivial, rfl⟩⟩

theorem Ends.and {m n : WM Unit} {P Q : Prop} (h1 : Ends m P) (h2 : Ends n Q) : Ends (m >>= fun _ => n) (P ∧ Q) := by
  obtain ⟨o1, r1, rfl, h1⟩ := h1
  obtain ⟨o2, r2, rfl, h2⟩ := h2
  rcases h1 with ⟨hp, rfl⟩ | ⟨hp, rfl⟩
  · refine ⟨o1 ++ o2, r2, WM.emit_bind_ok _ _ _ rfl, ?_⟩
    rcases h2 with ⟨hq, rfl⟩ | ⟨hq, rfl⟩
    · exact .inl ⟨⟨hp, hq⟩, rfl⟩
    · exact .inr ⟨fun h => hq h.2, rfl⟩
  · exact ⟨o1, .ioErr, WM.emit_bind_ioErr _ _, .inr ⟨fun h => hp h.1, rfl⟩⟩

theorem Ends.congr {m : WM Unit} {P Q : Prop} (h : Ends m P) (hpq : P ↔ Q) : Ends m Q := by
  have : P = Q := propext hpq
  subst this
  exact h

theorem ends_error {P : Prop} (h : ¬ P) : Ends (WM.lift .ioErr) P := ⟨[], .ioErr, WM.lift_eq_emit _, .inr ⟨h, rfl⟩⟩

mutual
theorem ends_write (level : Nat) (v : Json) : Ends (write level v) (Clean v) := by
  match v with
  | .null => exact (ends_put _).congr (by simp [Clean])
  | .bool true => exact (ends_put _).congr (by simp [Clean])
  | .bool false => exact (ends_put _).congr (by simp [Clean])
  | .nat n => exact (ends_put _).congr (by simp [Clean])
  | .str s => exact (ends_put _).congr (by simp [Clean])
  | .number => exact ends_error (by simp [Clean])
  | .invalid => exact ends_error (by simp [Clean])
  | .arr [] => exact (ends_put _).congr (by simp [Clean, CleanItems])
  | .arr (x :: xs) =>
    unfold write
    exact ((ends_put _).and ((ends_write (level + 1) x).and (ends_writeItems level xs))).congr (by simp [Clean, CleanItems])
  | .obj [] => exact (ends_put _).congr (by simp [Clean, CleanFields])
  | .obj ((k, x) :: xs) =>
    unfold write
    exact ((ends_put _).and ((ends_put _).and ((ends_put _).and
      ((ends_write (level + 1) x).and (ends_writeFields level xs))))).congr (by simp [Clean, CleanFields])

theorem ends_writeItems (level : Nat) (xs : List Json) : Ends (writeItems level xs) (CleanItems xs) := by
  match xs with
  | [] => exact (ends_put _).congr (by simp [CleanItems])
  | x :: xs =>
    unfold writeItems
    exact ((ends_put _).and ((ends_write (level + 1) x).and (ends_writeItems level xs))).congr (by simp [CleanItems])

theorem ends_writeFields (level : Nat) (xs : List (Str × Json)) : Ends (writeFields level xs) (CleanFields xs) := by
  match xs with
  | [] => exact (ends_put _).congr (by simp [CleanFields])
  | (k, x) :: xs =>
    unfold writeFields
    exact ((ends_put _).and ((ends_put _).and ((ends_put _).and
      ((ends_write (level + 1) x).and (ends_writeFields level xs))))).congr (by simp [CleanFields])
end

theorem cleanItems_map {T : Type} (f : T → Json) (l : List T) (h : ∀ x, Clean (f x)) : CleanItems (l.map f) := by
  induction l with
  | nil => simp [CleanItems]
  | cons x l ih => simp [CleanItems, h x, ih]

theorem clean_snippet {T : Type} (f : T → Json) (h : ∀ x, Clean (f x)) (s : Snippet T) : Clean (ofSnippet f s) := by
  simp [ofSnippet, Clean, CleanFields, cleanItems_map f _ h]

theorem clean_clump {T : Type} (f : T → Json) (h : ∀ x, Clean (f x)) (c : DiffClump T) : Clean (ofClump f c) := by
  simp [ofClump, Clean, CleanFields, CleanItems, clean_snippet f h]

theorem clean_path (path : Path) : Clean (ofPath path) ↔ IsUtf8 path := by
  by_cases h : IsUtf8 path
  · obtain ⟨s, rfl⟩ := h
    rw [ofPath_utf8 rfl]
    simp [Clean, IsUtf8]
  · rw [ofPath_not_utf8 h]
    simp [Clean, h]

theorem clean_ofDiff (d : Diff) : Clean (ofDiff d) ↔ ∀ path ∈ d.paths, IsUtf8 path := by
  have hs : ∀ x : Str, Clean (.str x) := fun x => by simp [Clean]
  have hb : ∀ x : UInt8, Clean (ofByte x) := fun x => by simp [Clean, ofByte]
  cases d <;>
    simp [ofDiff, Clean, CleanFields, clean_path, Diff.paths, cleanItems_map _ _ hs, cleanItems_map _ _ hb,
      cleanItems_map _ _ (clean_clump _ hs), cleanItems_map _ _ (clean_clump _ hb)]

end Json

/-- Writing a diff succeeds if its paths are UTF-8 and fails otherwise. -/
theorem ends_toWriter (d : Diff) : Json.Ends d.toWriter (∀ path ∈ d.paths, IsUtf8 path) :=
  (Json.ends_write 0 _).congr (Json.clean_ofDiff d)

end PwDiff
