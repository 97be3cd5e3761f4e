import Verif.Proofs.JsonGrammar
import Verif.Proofs.Size
import Verif.Proofs.JsonDiff

/-! # How long the text of a JSON document must be -/

namespace PwDiff

/-- The number of bytes of a text. -/
def Str.size (s : Str) : Nat := (Str.bytes s).length

@[simp] theorem Str.size_nil : Str.size [] = 0 := rfl
@[simp] theorem Str.size_append (s t : Str) : Str.size (s ++ t) = Str.size s + Str.size t := by simp [Str.size]
@[simp] theorem Str.size_cons (c : Char) (s : Str) : Str.size (c :: s) = c.utf8Size + Str.size s := by
  simp [Str.size, String.length_utf8EncodeChar]

theorem utf8Size_small {c : Char} (h : c.toNat < 128) : c.utf8Size = 1 := by
  have : c.val.toNat < 128 := h
  unfold Char.utf8Size
  rw [if_pos]
  exact UInt32.le_iff_toNat_le.2 (by simp; omega)

theorem utf8Size_medium {c : Char} (h : c.toNat < 65536) : c.utf8Size ≤ 3 := by
  have : c.val.toNat < 65536 := h
  unfold Char.utf8Size
  dsimp only
  split
  · omega
  · split
    · omega
    · split
      · omega
      · next h => exact absurd (UInt32.le_iff_toNat_le.2 (by simp; omega)) h

namespace Json

theorem IsHex.ascii {c : Char} {n : Nat} (h : IsHex c n) : c.utf8Size = 1 ∧ n < 16 := by
  have : ∀ s : List Char, s.length = 16 → (∀ x ∈ s, x.utf8Size = 1) → s[n]? = some c → c.utf8Size = 1 ∧ n < 16 := by
    intro s hs hx hn
    obtain ⟨h1, h2⟩ := List.getElem?_eq_some_iff.1 hn
    exact ⟨hx _ (h2 ▸ List.getElem_mem h1), by omega⟩
  rcases h with h | h
  · exact this _ (by decide) (by decide) h
  · exact this _ (by decide) (by decide) h

theorem IsHex4.size {s : Str} {n : Nat} (h : IsHex4 s n) : Str.size s = 4 ∧ n < 65536 := by
  obtain ⟨a, b, c, d, i, j, k, l, rfl, ha, hb, hc, hd, rfl⟩ := h
  have ha := ha.ascii
  have hb := hb.ascii
  have hc := hc.ascii
  have hd := hd.ascii
  refine ⟨by simp [ha.1, hb.1, hc.1, hd.1], by omega⟩

theorem Spells.size {c : Char} {t : Str} (h : Spells c t) : c.utf8Size ≤ Str.size t := by
  have hb : ('\\' : Char).utf8Size = 1 := by decide
  have hu : ('u' : Char).utf8Size = 1 := by decide
  cases h with
  | plain => simp
  | quote => decide
  | backslash => decide
  | slash => decide
  | backspace h => rw [utf8Size_small (by omega)]; decide
  | formFeed h => rw [utf8Size_small (by omega)]; decide
  | newline => decide
  | «return» => decide
  | tab => decide
  | hex h =>
    have := h.size
    have := utf8Size_medium this.2
    simp [hb, hu]; omega
  | pair h h' =>
    have := h.size
    have := h'.size
    have := Char.utf8Size_le_four c
    simp [hb, hu]; omega

theorem IsString.size {s t : Str} (h : IsString s t) : Str.size s ≤ Str.size t := by
  induction h with
  | nil => simp
  | cons h _ ih => simp; have := h.size; omega

mutual
/-- The least number of bytes of a text of the value. -/
def least : Json → Nat
  | .null => 4
  | .bool _ => 4
  | .nat _ => 1
  | .number => 1
  | .str s => 2 + Str.size s
  | .arr xs => max 2 (1 + leastItems xs)
  | .obj fs => max 2 (1 + leastFields fs)
  | .invalid => 0
/-- The same for items, each with the comma or bracket after it. -/
def leastItems : List Json → Nat
  | [] => 0
  | x :: xs => 1 + least x + leastItems xs
/-- The same for fields. -/
def leastFields : List (Str × Json) → Nat
  | [] => 0
  | f :: fs => 4 + Str.size f.1 + least f.2 + leastFields fs
end

theorem size_digits {s : Str} (h : Digits1 s) : 1 ≤ Str.size s := by
  obtain ⟨h, -⟩ := h
  cases s with
  | nil => exact absurd rfl h
  | cons c s => simp; have := Char.utf8Size_pos c; omega

theorem IsNumber.size {j : Json} {t : Str} (h : IsNumber j t) : least j ≤ Str.size t := by
  cases h with
  | nat h => exact size_digits h.1
  | other _ h =>
    have := size_digits h.1
    simp [least]; omega

mutual
theorem IsValue.size {j : Json} {t : Str} (h : IsValue j t) : least j ≤ Str.size t := by
  have q : ('"' : Char).utf8Size = 1 := by decide
  have b1 : ('[' : Char).utf8Size = 1 := by decide
  have b2 : (']' : Char).utf8Size = 1 := by decide
  have b3 : ('{' : Char).utf8Size = 1 := by decide
  have b4 : ('}' : Char).utf8Size = 1 := by decide
  cases h with
  | null => decide
  | true => decide
  | false => decide
  | number h => exact h.size
  | str h => have := h.size; simp [least, q]; omega
  | noItems h => simp [least, leastItems, b1, b2]; omega
  | arr h => have := IsItems.size h; simp [least, b1, b2]; omega
  | noFields h => simp [least, leastFields, b3, b4]; omega
  | obj h => have := IsFields.size h; simp [least, b3, b4]; omega

theorem IsItems.size {xs : List Json} {t : Str} (h : IsItems xs t) : leastItems xs ≤ Str.size t + 1 := by
  have q : (',' : Char).utf8Size = 1 := by decide
  cases h with
  | one _ h => have := IsValue.size h; simp [leastItems]; omega
  | more _ h _ h' => have := IsValue.size h; have := IsItems.size h'; simp [leastItems, q]; omega

theorem IsField.size {f : Str × Json} {t : Str} (h : IsField f t) : 3 + Str.size f.1 + least f.2 ≤ Str.size t := by
  have q : ('"' : Char).utf8Size = 1 := by decide
  have c : (':' : Char).utf8Size = 1 := by decide
  cases h with
  | mk _ h _ _ h' => have := h.size; have := IsValue.size h'; simp [q, c]; omega

theorem IsFields.size {fs : List (Str × Json)} {t : Str} (h : IsFields fs t) : leastFields fs ≤ Str.size t + 1 := by
  have q : (',' : Char).utf8Size = 1 := by decide
  cases h with
  | one h => have := IsField.size h; simp [leastFields]; omega
  | more h _ h' => have := IsField.size h; have := IsFields.size h'; simp [leastFields, q]; omega
end

theorem IsDocument.size {j : Json} {s : Str} (h : IsDocument j s) : least j ≤ Str.size s := by
  obtain ⟨w, t, w', rfl, -, h, -⟩ := h
  have := h.size
  simp; omega

/-! ## Structs and lists -/

/-- The sum of the least sizes of the fields' values, with a comma each. -/
def leastValues : List (Str × Json) → Nat
  | [] => 0
  | f :: fs => 1 + least f.2 + leastValues fs

theorem leastFields_split (pre post : List (Str × Json)) (f : Str × Json) :
    leastFields (pre ++ f :: post) = 4 + Str.size f.1 + least f.2 + leastFields (pre ++ post) := by
  induction pre with
  | nil => simp [leastFields]
  | cons g pre ih => simp only [List.cons_append, leastFields, ih]; omega

theorem leastFields_once {fields fs : List (Str × Json)} (hn : fields.Pairwise fun f g => f.1 ≠ g.1)
    (h : ∀ f ∈ fields, Once f.1 f.2 fs) : leastFields fields ≤ leastFields fs := by
  induction fields generalizing fs with
  | nil => simp [leastFields]
  | cons f fields ih =>
    obtain ⟨pre, post, rfl, -⟩ := h f (by simp)
    obtain ⟨hn1, hn2⟩ := List.pairwise_cons.1 hn
    rw [leastFields_split]
    have := ih (fs := pre ++ post) hn2 fun g hg => by
      have hg' := (lookupOnce_iff ..).2 (h g (by simp [hg]))
      refine (lookupOnce_iff ..).1 ?_
      unfold lookupOnce at hg' ⊢
      rwa [List.filter_append, List.filter_cons_of_neg (by simp [hn1 g hg]), ← List.filter_append] at hg'
    simp only [leastFields]
    omega

theorem leastValues_le (fields : List (Str × Json)) : leastValues fields ≤ leastFields fields := by
  induction fields with
  | nil => simp [leastFields, leastValues]
  | cons f fields ih => simp only [leastFields, leastValues]; omega

theorem leastItems_map (fields : List (Str × Json)) : leastItems (fields.map Prod.snd) = leastValues fields := by
  induction fields with
  | nil => rfl
  | cons f fields ih => simp only [List.map_cons, leastItems, leastValues, ih]

theorem IsStruct.size {fields : List (Str × Json)} {j : Json} (hn : fields.Pairwise fun f g => f.1 ≠ g.1) (h : IsStruct fields j) :
    1 + leastValues fields ≤ least j := by
  rcases h with ⟨fs, rfl, h⟩ | rfl
  · have := leastFields_once hn h
    have := leastValues_le fields
    simp only [least]; omega
  · simp only [least, leastItems_map]; omega

theorem IsList.size {T : Type} {item : T → Json → Prop} {cost : T → Nat} (hc : ∀ x j, item x j → cost x ≤ least j) {l : List T} {j : Json}
    (h : IsList item l j) : 2 ≤ least j ∧ 1 + total (fun x => 1 + cost x) l ≤ least j := by
  obtain ⟨xs, rfl, h1, h2⟩ := h
  have key : total (fun x => 1 + cost x) l ≤ leastItems xs := by
    induction l generalizing xs with
    | nil => simp [total]
    | cons x l ih =>
      cases xs with
      | nil => simp at h1
      | cons y xs =>
        have := ih xs (by simpa using h1) fun i x y hx hy => h2 (i + 1) x y (by simpa using hx) (by simpa using hy)
        have := hc x y (h2 0 x y rfl rfl)
        simp only [total, leastItems]; omega
  simp only [least]; omega

/-- What the text of a snippet costs, if its items cost `cost`. -/
def snippetCost {T : Type} (cost : T → Nat) (s : Snippet T) : Nat := 4 + max 2 (1 + total (fun x => 1 + cost x) s.items)

theorem IsSnippet.size {T : Type} {item : T → Json → Prop} {cost : T → Nat} (hc : ∀ x j, item x j → cost x ≤ least j) {s : Snippet T}
    {j : Json} (h : IsSnippet item s j) : snippetCost cost s ≤ least j := by
  obtain ⟨a, b, h1, h2, h3⟩ := h
  have h1 := h1.size (by simp)
  have h3 := h3.size hc
  obtain ⟨-, rfl⟩ := h2
  simp only [leastValues, least] at h1
  unfold snippetCost
  omega

/-- What the text of a clump costs. -/
def clumpCost {T : Type} (cost : T → Nat) (c : DiffClump T) : Nat := 9 + snippetCost cost c.before + snippetCost cost c.after

theorem IsClump.size {T : Type} {item : T → Json → Prop} {cost : T → Nat} (hc : ∀ x j, item x j → cost x ≤ least j) {c : DiffClump T}
    {j : Json} (h : IsClump item c j) : clumpCost cost c ≤ least j := by
  obtain ⟨a, b, x, y, h1, -, -, -, h2, h3⟩ := h
  have h1 := h1.size (by simp)
  have h2 := h2.size hc
  have h3 := h3.size hc
  simp only [leastValues, least, leastItems] at h1
  unfold clumpCost
  omega

/-- What the text of a line costs. -/
def lineCost (s : Str) : Nat := 2 + Str.size s

theorem IsLine.size {s : Str} {j : Json} (h : IsLine s j) : lineCost s ≤ least j := by
  obtain rfl := h
  exact Nat.le_refl _

theorem IsByte.size {b : UInt8} {j : Json} (h : IsByte b j) : 1 ≤ least j := by
  obtain rfl := h
  exact Nat.le_refl _

/-- What the text of a diff costs at least. -/
def diffCost : Diff → Nat
  | .textChange d => total (fun c => 1 + clumpCost lineCost c) d.clumps
  | .byteChange d => total (fun c => 1 + clumpCost (fun _ => 1) c) d.clumps
  | .textAdd d | .textRemove d => total (fun s => 1 + lineCost s) d.lines
  | .byteAdd d | .byteRemove d => total (fun _ => 1 + 1) d.bytes

theorem StandsFor.size {d : Diff} {j : Json} (h : StandsFor d j) : diffCost d ≤ least j := by
  cases h with
  | textChange h _ _ h' =>
    have h := h.size (by simp)
    have h' := h'.size (cost := clumpCost lineCost) fun x j hx => IsClump.size (fun x j hx => IsLine.size hx) hx
    simp only [leastValues, least, leastFields, diffCost] at h ⊢
    omega
  | byteChange h _ _ h' =>
    have h := h.size (by simp)
    have h' := h'.size (cost := clumpCost fun _ => 1) fun x j hx => IsClump.size (fun x j hx => IsByte.size hx) hx
    simp only [leastValues, least, leastFields, diffCost] at h ⊢
    omega
  | textAdd h _ h' =>
    have h := h.size (by simp)
    have h' := h'.size (cost := lineCost) fun x j hx => IsLine.size hx
    simp only [leastValues, least, leastFields, diffCost] at h ⊢
    omega
  | textRemove h _ h' =>
    have h := h.size (by simp)
    have h' := h'.size (cost := lineCost) fun x j hx => IsLine.size hx
    simp only [leastValues, least, leastFields, diffCost] at h ⊢
    omega
  | byteAdd h _ h' =>
    have h := h.size (by simp)
    have h' := h'.size (cost := fun _ => 1) fun x j hx => IsByte.size hx
    simp only [leastValues, least, leastFields, diffCost] at h ⊢
    omega
  | byteRemove h _ h' =>
    have h := h.size (by simp)
    have h' := h'.size (cost := fun _ => 1) fun x j hx => IsByte.size hx
    simp only [leastValues, least, leastFields, diffCost] at h ⊢
    omega

end Json

end PwDiff
