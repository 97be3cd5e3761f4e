import Verif.Proofs.JsonSize
import Verif.Proofs.Unwritable
import Verif.Props.Size
import Verif.Props.Faults
import Verif.Props.Clumps
import Verif.Props.Changes

/-! # C109: how large a diff can be -/

namespace PwDiff

open Sys

variable {T : Type}

namespace Json

/-! ## The size of the text of a document -/

theorem size_spaces (n : Nat) : Str.size (List.replicate n ' ') = n := by
  induction n with
  | zero => rfl
  | succ n ih =>
    rw [List.replicate_succ, Str.size_cons, ih, show ' '.utf8Size = 1 from rfl]
    omega

theorem size_newline (level : Nat) : Str.size (newline level) = 1 + 2 * level := by
  rw [newline, Str.size_cons, size_spaces]
  rfl

theorem size_digit {c : Char} (h : c.isDigit = true) : c.utf8Size = 1 := by
  apply utf8Size_small
  simp only [Char.isDigit, Bool.and_eq_true, decide_eq_true_eq] at h
  have : c.toNat ≤ 57 := UInt32.le_iff_toNat_le.1 h.2
  omega

theorem size_nat {n k : Nat} (h : n < 10 ^ k) (hk : 0 < k) : Str.size (Nat.toDigits 10 n) ≤ k := by
  have hl := (Nat.length_toDigits_le_iff (b := 10) (n := n) (by omega) hk).2 h
  have all : ∀ s : Str, (∀ c ∈ s, c.isDigit = true) → Str.size s = s.length := by
    intro s
    induction s with
    | nil => intro _; rfl
    | cons c s ih =>
      intro hs
      rw [Str.size_cons, size_digit (hs c (by simp)), ih (fun x hx => hs x (by simp [hx])), List.length_cons]
      omega
  rw [all _ (fun c hc => Nat.isDigit_of_mem_toDigits (by omega) (by omega) hc)]
  exact hl

theorem size_hexDigit {n : Nat} (h : n < 16) : (hexDigit n).utf8Size = 1 := by
  have : ∀ n : Fin 16, (hexDigit n.val).utf8Size = 1 := by decide
  exact this ⟨n, h⟩

theorem size_escape (c : Char) : Str.size (escape c) ≤ 6 * c.utf8Size := by
  have h1 := c.utf8Size_pos
  unfold escape
  split
  · simp only [Str.size_cons, Str.size_nil]
    have : '\\'.utf8Size = 1 := rfl
    have : '"'.utf8Size = 1 := rfl
    omega
  · have e : '\\'.utf8Size = 1 := rfl
    have e0 : '0'.utf8Size = 1 := rfl
    have eu : 'u'.utf8Size = 1 := rfl
    have eb : 'b'.utf8Size = 1 := rfl
    have et : 't'.utf8Size = 1 := rfl
    have en : 'n'.utf8Size = 1 := rfl
    have ef : 'f'.utf8Size = 1 := rfl
    have er : 'r'.utf8Size = 1 := rfl
    have a : c.toNat < 32 → (hexDigit (c.toNat / 16)).utf8Size = 1 := fun h => size_hexDigit (by omega)
    have b := size_hexDigit (n := c.toNat % 16) (by omega)
    repeat' split
    all_goals simp only [Str.size_cons, Str.size_nil]
    all_goals omega

theorem size_quote (s : Str) : Str.size (quote s) ≤ 2 + 6 * Str.size s := by
  have e : '"'.utf8Size = 1 := rfl
  have : Str.size (s.flatMap escape) ≤ 6 * Str.size s := by
    induction s with
    | nil => simp
    | cons c s ih =>
      have := size_escape c
      rw [List.flatMap_cons, Str.size_append, Str.size_cons]
      omega
  unfold quote
  simp only [Str.size_append, Str.size_cons, Str.size_nil, List.cons_append]
  omega

theorem size_textItems (level : Nat) (xs : List Json) :
    Str.size (textItems level xs) = 2 * level + 2 + total (fun x => 2 * level + 4 + Str.size (text (level + 1) x)) xs := by
  have e : ','.utf8Size = 1 := rfl
  have e' : ']'.utf8Size = 1 := rfl
  induction xs with
  | nil =>
    simp only [textItems, Str.size_append, Str.size_cons, Str.size_nil, size_newline, total]
    omega
  | cons x xs ih =>
    simp only [textItems, Str.size_append, Str.size_cons, size_newline, total]
    omega

theorem size_textFields (level : Nat) (xs : List (Str × Json)) :
    Str.size (textFields level xs) =
      2 * level + 2 + total (fun f => 2 * level + 6 + Str.size (quote f.1) + Str.size (text (level + 1) f.2)) xs := by
  have e : ','.utf8Size = 1 := rfl
  have e' : '}'.utf8Size = 1 := rfl
  have e1 : ':'.utf8Size = 1 := rfl
  have e2 : ' '.utf8Size = 1 := rfl
  induction xs with
  | nil =>
    simp only [textFields, Str.size_append, Str.size_cons, Str.size_nil, size_newline, total]
    omega
  | cons x xs ih =>
    obtain ⟨k, x⟩ := x
    simp only [textFields, Str.size_append, Str.size_cons, size_newline, total]
    omega

theorem size_arr (level : Nat) (xs : List Json) :
    Str.size (text level (.arr xs)) ≤ 2 * level + 2 + total (fun x => 2 * level + 4 + Str.size (text (level + 1) x)) xs := by
  have e : '['.utf8Size = 1 := rfl
  have e' : ']'.utf8Size = 1 := rfl
  cases xs with
  | nil =>
    simp only [text, Str.size_cons, Str.size_nil, total]
    omega
  | cons x xs =>
    simp only [text, Str.size_append, Str.size_cons, size_newline, total, size_textItems]
    omega

theorem size_obj (level : Nat) (xs : List (Str × Json)) :
    Str.size (text level (.obj xs)) ≤
      2 * level + 2 + total (fun f => 2 * level + 6 + Str.size (quote f.1) + Str.size (text (level + 1) f.2)) xs := by
  have e : '{'.utf8Size = 1 := rfl
  have e' : '}'.utf8Size = 1 := rfl
  have e1 : ':'.utf8Size = 1 := rfl
  have e2 : ' '.utf8Size = 1 := rfl
  cases xs with
  | nil =>
    simp only [text, Str.size_cons, Str.size_nil, total]
    omega
  | cons x xs =>
    obtain ⟨k, x⟩ := x
    simp only [text, Str.size_append, Str.size_cons, size_newline, total, size_textFields]
    omega

theorem total_map {α β : Type} (g : β → Nat) (f : α → β) (l : List α) : total g (l.map f) = total (fun x => g (f x)) l := by
  induction l with
  | nil => rfl
  | cons x l ih => simp only [List.map_cons, total, ih]

theorem total_each {α : Type} {f g : α → Nat} {l : List α} (h : ∀ x ∈ l, f x ≤ g x) : total f l ≤ total g l := by
  induction l with
  | nil => exact Nat.le_refl _
  | cons x l ih =>
    have := h x (by simp)
    have := ih (fun y hy => h y (by simp [hy]))
    simp only [total]
    omega

/-- A snippet in a clump: `cost` bounds what an item takes without its indentation. -/
theorem size_snippet (f : T → Json) (cost : T → Nat) (hf : ∀ x, Str.size (text 6 (f x)) ≤ cost x) (s : Snippet T)
    (hs : s.start < wordSize) : Str.size (text 4 (ofSnippet f s)) ≤ 84 + total (fun x => 14 + cost x) s.items := by
  have h1 := size_obj 4 [(kStart, .nat s.start), (kItems, .arr (s.items.map f))]
  have h2 := size_arr 5 (s.items.map f)
  have h3 : Str.size (text 5 (.nat s.start)) ≤ 20 := by
    simp only [text]
    exact size_nat (Nat.lt_of_lt_of_le hs (by decide)) (by omega)
  have h4 : Str.size (quote kStart) = 7 := by decide
  have h5 : Str.size (quote kItems) = 7 := by decide
  have h6 : total (fun x => 2 * 5 + 4 + Str.size (text 6 (f x))) s.items ≤ total (fun x => 14 + cost x) s.items :=
    total_each fun x _ => by have := hf x; omega
  rw [total_map] at h2
  simp only [total, h4, h5, Nat.reduceAdd, Nat.reduceMul] at h1 h2 h6
  unfold ofSnippet
  omega

/-- A clump. -/
theorem size_clump (f : T → Json) (cost : T → Nat) (hf : ∀ x, Str.size (text 6 (f x)) ≤ cost x) (c : DiffClump T)
    (hc : c.InRange) : Str.size (text 3 (ofClump f c)) ≤
      284 + (total (fun x => 14 + cost x) c.before.items + total (fun x => 14 + cost x) c.after.items) := by
  obtain ⟨g1, g2, g3, g4⟩ := hc
  have h1 := size_obj 3 [(kContextLengths, .arr [.nat c.contextLengths.1, .nat c.contextLengths.2]),
    (kBefore, ofSnippet f c.before), (kAfter, ofSnippet f c.after)]
  have h2 := size_arr 4 [.nat c.contextLengths.1, .nat c.contextLengths.2]
  have n1 : Str.size (text 5 (.nat c.contextLengths.1)) ≤ 3 := by
    simp only [text]
    exact size_nat (Nat.lt_of_lt_of_le g1 (by decide)) (by omega)
  have n2 : Str.size (text 5 (.nat c.contextLengths.2)) ≤ 3 := by
    simp only [text]
    exact size_nat (Nat.lt_of_lt_of_le g2 (by decide)) (by omega)
  have h3 := size_snippet f cost hf c.before g3
  have h4 := size_snippet f cost hf c.after g4
  have q1 : Str.size (quote kContextLengths) = 17 := by decide
  have q2 : Str.size (quote kBefore) = 8 := by decide
  have q3 : Str.size (quote kAfter) = 7 := by decide
  simp only [total, q1, q2, q3, Nat.reduceAdd, Nat.reduceMul] at h1 h2
  unfold ofClump
  omega

theorem size_path (level : Nat) (path : Path) : Str.size (text level (ofPath path)) ≤ 2 + 6 * path.length := by
  by_cases h : IsUtf8 path
  · obtain ⟨s, rfl⟩ := h
    rw [ofPath_utf8 rfl]
    simp only [text]
    exact size_quote s
  · rw [ofPath_not_utf8 h]
    simp [text]

end Json

open Json

/-- The number of clumps that a diff records. -/
def Diff.clumpsIn : Diff → Nat
  | .textChange d => d.clumps.length
  | .byteChange d => d.clumps.length
  | _ => 0

/-- The number of lines, or of bytes in a diff of bytes, that a diff records. -/
def Diff.itemsIn : Diff → Nat
  | .textChange d => (d.clumps.map fun c => c.before.items.length + c.after.items.length).sum
  | .byteChange d => (d.clumps.map fun c => c.before.items.length + c.after.items.length).sum
  | .textAdd d | .textRemove d => d.lines.length
  | .byteAdd d | .byteRemove d => d.bytes.length

/-- Their size in bytes. -/
def Diff.bytesIn : Diff → Nat
  | .textChange d => (d.clumps.map fun c => (bytesOf c.before.items).length + (bytesOf c.after.items).length).sum
  | .byteChange d => (d.clumps.map fun c => c.before.items.length + c.after.items.length).sum
  | .textAdd d | .textRemove d => (bytesOf d.lines).length
  | .byteAdd d | .byteRemove d => d.bytes.length

theorem total_items (l : List Str) (a b : Nat) :
    total (fun x => a + (2 + b * Str.size x)) l = (a + 2) * l.length + b * (bytesOf l).length := by
  induction l with
  | nil => rfl
  | cons x l ih =>
    have : (bytesOf (x :: l)).length = Str.size x + (bytesOf l).length := by
      simp [bytesOf, Item.bytes, Str.size]
    simp only [total, ih, this, List.length_cons, Nat.mul_add, Nat.add_mul]
    omega

theorem total_fixed (l : List T) (a : Nat) : total (fun _ => a) l = a * l.length := by
  induction l with
  | nil => rfl
  | cons x l ih =>
    simp only [total, ih, List.length_cons, Nat.mul_add]
    omega

theorem total_split {α : Type} (f g : α → Nat) (a b c : Nat) (l : List α) :
    total (fun x => a + (b * f x + c * g x)) l = a * l.length + b * (l.map f).sum + c * (l.map g).sum := by
  induction l with
  | nil => rfl
  | cons x l ih =>
    simp only [total, ih, List.length_cons, List.map_cons, List.sum_cons, Nat.mul_add]
    omega

/-- Whatever a diff records (also a hand-made one): its text has at most 292 bytes for every clump, 16 for every line or byte, and
6 times the size of what it records. -/
theorem C109_text (d : Diff) (hd : d.InRange) :
    (Json.text 0 (Json.ofDiff d)).bytes.length ≤
      120 + 6 * (d.paths.map List.length).sum + 292 * d.clumpsIn + 16 * d.itemsIn + 6 * d.bytesIn := by
  show Str.size _ ≤ _
  have k1 : Str.size (quote kTextChange) = 12 := by decide
  have k2 : Str.size (quote kByteChange) = 12 := by decide
  have k3 : Str.size (quote kTextAdd) = 9 := by decide
  have k4 : Str.size (quote kTextRemove) = 12 := by decide
  have k5 : Str.size (quote kByteAdd) = 9 := by decide
  have k6 : Str.size (quote kByteRemove) = 12 := by decide
  have k7 : Str.size (quote kBeforePath) = 13 := by decide
  have k8 : Str.size (quote kAfterPath) = 12 := by decide
  have k9 : Str.size (quote kClumps) = 8 := by decide
  have k10 : Str.size (quote kCompressed) = 12 := by decide
  have k11 : Str.size (quote kPath) = 6 := by decide
  have k12 : Str.size (quote kLines) = 7 := by decide
  have k13 : Str.size (quote kBytes) = 7 := by decide
  have kb : ∀ b, Str.size (text 2 (.bool b)) ≤ 5 := by
    intro b
    cases b <;> simp only [text] <;> decide
  have str : ∀ (level : Nat) (x : Str), Str.size (text level (.str x)) ≤ 2 + 6 * Str.size x := by
    intro level x
    simp only [text]
    exact size_quote x
  have byte : ∀ (level : Nat) (x : UInt8), Str.size (text level (ofByte x)) ≤ 3 := by
    intro level x
    simp only [text, ofByte]
    exact size_nat (Nat.lt_of_lt_of_le x.toNat_lt (by decide)) (by omega)
  have outer : ∀ (k : Str) (v : Json), Str.size (text 0 (.obj [(k, v)])) ≤ 8 + Str.size (quote k) + Str.size (text 1 v) := by
    intro k v
    have := size_obj 0 [(k, v)]
    simp only [total, Nat.reduceAdd, Nat.reduceMul] at this
    omega
  have lines : ∀ l : List Str, Str.size (text 2 (.arr (l.map .str))) ≤ 6 + 10 * l.length + 6 * (bytesOf l).length := by
    intro l
    have h := size_arr 2 (l.map .str)
    rw [total_map] at h
    have h' := total_items l 8 6
    have : total (fun x : Str => 2 * 2 + 4 + Str.size (text 3 (.str x))) l ≤ total (fun x => 8 + (2 + 6 * Str.size x)) l :=
      total_each fun x _ => by have := str 3 x; omega
    simp only [Nat.reduceAdd, Nat.reduceMul] at h this
    omega
  have bytes : ∀ l : List UInt8, Str.size (text 2 (.arr (l.map ofByte))) ≤ 6 + 11 * l.length := by
    intro l
    have h := size_arr 2 (l.map ofByte)
    rw [total_map] at h
    have h' := total_fixed l 11
    have : total (fun x => 2 * 2 + 4 + Str.size (text 3 (ofByte x))) l ≤ total (fun _ => 11) l :=
      total_each fun x _ => by have := byte 3 x; omega
    simp only [Nat.reduceAdd, Nat.reduceMul] at h this
    omega
  cases d with
  | textChange d =>
    have h := outer kTextChange (.obj [(kBeforePath, ofPath d.beforePath), (kAfterPath, ofPath d.afterPath),
      (kClumps, .arr (d.clumps.map (ofClump .str)))])
    have h1 := size_obj 1 [(kBeforePath, ofPath d.beforePath), (kAfterPath, ofPath d.afterPath),
      (kClumps, .arr (d.clumps.map (ofClump .str)))]
    have h2 := size_arr 2 (d.clumps.map (ofClump .str))
    rw [total_map] at h2
    have p1 := size_path 2 d.beforePath
    have p2 := size_path 2 d.afterPath
    have h3 : total (fun c => 2 * 2 + 4 + Str.size (text 3 (ofClump .str c))) d.clumps ≤
        total (fun c : DiffClump Str => 292 + (16 * (c.before.items.length + c.after.items.length) +
          6 * ((bytesOf c.before.items).length + (bytesOf c.after.items).length))) d.clumps := by
      apply total_each
      intro c hc
      have := size_clump .str (fun x => 2 + 6 * Str.size x) (str 6) c (hd c hc)
      rw [total_items, total_items] at this
      omega
    rw [total_split] at h3
    simp only [total, Nat.reduceAdd, Nat.reduceMul] at h1 h2 h3
    simp only [Diff.paths, Diff.clumpsIn, Diff.itemsIn, Diff.bytesIn, ofDiff, List.map_cons, List.map_nil, List.sum_cons, List.sum_nil]
    omega
  | byteChange d =>
    have h := outer kByteChange (.obj [(kBeforePath, ofPath d.beforePath), (kAfterPath, ofPath d.afterPath),
      (kCompressed, .bool d.compressed), (kClumps, .arr (d.clumps.map (ofClump ofByte)))])
    have h1 := size_obj 1 [(kBeforePath, ofPath d.beforePath), (kAfterPath, ofPath d.afterPath),
      (kCompressed, .bool d.compressed), (kClumps, .arr (d.clumps.map (ofClump ofByte)))]
    have h2 := size_arr 2 (d.clumps.map (ofClump ofByte))
    rw [total_map] at h2
    have p1 := size_path 2 d.beforePath
    have p2 := size_path 2 d.afterPath
    have p3 := kb d.compressed
    have h3 : total (fun c => 2 * 2 + 4 + Str.size (text 3 (ofClump ofByte c))) d.clumps ≤
        total (fun c : DiffClump UInt8 => 292 + (16 * (c.before.items.length + c.after.items.length) +
          6 * (c.before.items.length + c.after.items.length))) d.clumps := by
      apply total_each
      intro c hc
      have := size_clump ofByte (fun _ => 3) (byte 6) c (hd c hc)
      rw [total_fixed, total_fixed] at this
      omega
    rw [total_split] at h3
    simp only [total, Nat.reduceAdd, Nat.reduceMul] at h1 h2 h3
    simp only [Diff.paths, Diff.clumpsIn, Diff.itemsIn, Diff.bytesIn, ofDiff, List.map_cons, List.map_nil, List.sum_cons, List.sum_nil]
    omega
  | textAdd d =>
    have h := outer kTextAdd (.obj [(kPath, ofPath d.path), (kLines, .arr (d.lines.map .str))])
    have h1 := size_obj 1 [(kPath, ofPath d.path), (kLines, .arr (d.lines.map .str))]
    have p1 := size_path 2 d.path
    have h2 := lines d.lines
    simp only [total, Nat.reduceAdd, Nat.reduceMul] at h1
    simp only [Diff.paths, Diff.clumpsIn, Diff.itemsIn, Diff.bytesIn, ofDiff, List.map_cons, List.map_nil, List.sum_cons, List.sum_nil]
    omega
  | textRemove d =>
    have h := outer kTextRemove (.obj [(kPath, ofPath d.path), (kLines, .arr (d.lines.map .str))])
    have h1 := size_obj 1 [(kPath, ofPath d.path), (kLines, .arr (d.lines.map .str))]
    have p1 := size_path 2 d.path
    have h2 := lines d.lines
    simp only [total, Nat.reduceAdd, Nat.reduceMul] at h1
    simp only [Diff.paths, Diff.clumpsIn, Diff.itemsIn, Diff.bytesIn, ofDiff, List.map_cons, List.map_nil, List.sum_cons, List.sum_nil]
    omega
  | byteAdd d =>
    have h := outer kByteAdd (.obj [(kPath, ofPath d.path), (kCompressed, .bool d.compressed), (kBytes, .arr (d.bytes.map ofByte))])
    have h1 := size_obj 1 [(kPath, ofPath d.path), (kCompressed, .bool d.compressed), (kBytes, .arr (d.bytes.map ofByte))]
    have p1 := size_path 2 d.path
    have p2 := kb d.compressed
    have h2 := bytes d.bytes
    simp only [total, Nat.reduceAdd, Nat.reduceMul] at h1
    simp only [Diff.paths, Diff.clumpsIn, Diff.itemsIn, Diff.bytesIn, ofDiff, List.map_cons, List.map_nil, List.sum_cons, List.sum_nil]
    omega
  | byteRemove d =>
    have h := outer kByteRemove (.obj [(kPath, ofPath d.path), (kCompressed, .bool d.compressed), (kBytes, .arr (d.bytes.map ofByte))])
    have h1 := size_obj 1 [(kPath, ofPath d.path), (kCompressed, .bool d.compressed), (kBytes, .arr (d.bytes.map ofByte))]
    have p1 := size_path 2 d.path
    have p2 := kb d.compressed
    have h2 := bytes d.bytes
    simp only [total, Nat.reduceAdd, Nat.reduceMul] at h1
    simp only [Diff.paths, Diff.clumpsIn, Diff.itemsIn, Diff.bytesIn, ofDiff, List.map_cons, List.map_nil, List.sum_cons, List.sum_nil]
    omega

/-! ## What a diff of two files records -/

theorem synced_sums {skip : CommonSubsequence → Prop} {before after : List T} [Item T] {i j : Nat} {rs : List (Range × Range)}
    (h : Synced skip i j rs before.length after.length) :
    (rs.map fun r => (cut before r.1.start r.1.fin).length).sum ≤ before.length - i ∧
    (rs.map fun r => (cut after r.2.start r.2.fin).length).sum ≤ after.length - j ∧
    (rs.map fun r => (bytesOf (cut before r.1.start r.1.fin)).length).sum ≤ (bytesOf (before.drop i)).length ∧
    (rs.map fun r => (bytesOf (cut after r.2.start r.2.fin)).length).sum ≤ (bytesOf (after.drop j)).length := by
  induction rs generalizing i j with
  | nil => simp
  | cons r rs ih =>
    obtain ⟨r, s⟩ := r
    have hin := h.inside
    obtain ⟨⟨n, h1, h2, -⟩, h3, h4, h5⟩ := h
    obtain ⟨g1, g2, g3, g4⟩ := ih h5
    obtain ⟨i1, i2, i3⟩ := hin
    obtain ⟨-, a1, -, a2⟩ := i3 (r, s) (by simp)
    simp only at a1 a2
    have key : ∀ (l : List T) (k a b : Nat), k ≤ a → a ≤ b → b ≤ l.length →
        (bytesOf (cut l a b)).length + (bytesOf (l.drop b)).length ≤ (bytesOf (l.drop k)).length := by
      intro l k a b hk hab hb
      have e : l.drop k = (l.drop k).take (a - k) ++ (cut l a b ++ l.drop b) := by
        have e1 : (l.drop k).drop (a - k) = l.drop a := by rw [List.drop_drop]; congr 1; omega
        have e2 : (l.drop a).drop (b - a) = l.drop b := by rw [List.drop_drop]; congr 1; omega
        have e3 : cut l a b ++ l.drop b = l.drop a := by
          unfold cut
          rw [← e2, List.take_append_drop]
        rw [e3, ← e1, List.take_append_drop]
      rw [e, bytesOf_append, bytesOf_append]
      simp only [List.length_append]
      omega
    have k1 := key before i r.start r.fin (by omega) h3 a1
    have k2 := key after j s.start s.fin (by omega) h4 a2
    simp only [List.map_cons, List.sum_cons]
    rw [length_cut _ _ _ a1, length_cut _ _ _ a2]
    refine ⟨by omega, by omega, by omega, by omega⟩

theorem reals_proper {i j ie je : Nat} {cs : List Change} (h : Tiles i j cs ie je) (hp : ∀ c ∈ cs, c.Proper) :
    (reals cs).length + i + j ≤ ie + je := by
  induction cs generalizing i j with
  | nil => obtain ⟨rfl, rfl⟩ := h; simp
  | cons c cs ih =>
    obtain ⟨h1, h2, h3, h4, h5⟩ := h
    have := ih h5 (fun c hc => hp c (List.mem_cons_of_mem _ hc))
    have hc := hp c (by simp)
    cases c with
    | noChange c =>
      rw [reals_noChange]
      omega
    | delete r n =>
      rw [reals_real _ rfl]
      simp only [Change.Proper, Change.old, Change.new, List.length_cons] at *
      omega
    | insert n r =>
      rw [reals_real _ rfl]
      simp only [Change.Proper, Change.old, Change.new, List.length_cons] at *
      omega
    | replace r s =>
      rw [reals_real _ rfl]
      simp only [Change.Proper, Change.old, Change.new, List.length_cons] at *
      omega

/-- No line is recorded twice on a side, whatever the context: the sides of the clumps together are no larger than the files; and
there are no more clumps than lines. -/
theorem C109_sides [DecidableEq T] [Item T] [LawfulItem T] (p : Profile) (before after : List T) (context : Nat)
    (cs : List (DiffClump T)) (h : diffClumps p before after context = .ok cs) :
    (cs.map fun c => c.before.items.length).sum ≤ before.length ∧
    (cs.map fun c => c.after.items.length).sum ≤ after.length ∧
    (cs.map fun c => (bytesOf c.before.items).length).sum ≤ (bytesOf before).length ∧
    (cs.map fun c => (bytesOf c.after.items).length).sum ≤ (bytesOf after).length ∧
    cs.length ≤ before.length + after.length := by
  obtain ⟨changes, ccs, e1, e2, e3, e4, e5⟩ := diffClumps_spec p before after context
  obtain rfl := Outcome.ok_inj (e5.symm.trans h)
  have hs := synced_sums e4
  have hn : ccs.length ≤ (reals changes).length := by
    rw [← e3.sameReals]
    have := e3.each
    clear e2 e3 e4 e5 h hs
    induction ccs with
    | nil => simp
    | cons c ccs ih =>
      have h1 := ih (fun c hc => this c (List.mem_cons_of_mem _ hc))
      have h2 := List.length_pos_iff.2 (this c (by simp)).real
      rw [List.flatMap_cons, List.length_append, List.length_cons]
      omega
  have ht := reals_proper (C12_tiles p before after changes e1) (C13_normal p before after changes e1).1
  simp only [List.map_map, List.drop_zero, Nat.sub_zero] at hs
  simp only [List.map_map, List.length_map]
  exact ⟨hs.1, hs.2.1, hs.2.2.1, hs.2.2.2, by omega⟩

theorem sum_pairs {α : Type} (f g : α → Nat) (l : List α) :
    (l.map fun x => f x + g x).sum = (l.map f).sum + (l.map g).sum := by
  induction l with
  | nil => rfl
  | cons x l ih =>
    simp only [List.map_cons, List.sum_cons, ih]
    omega

theorem recorded_size {p : Profile} {fs : FS} {before after : Path} {context : Nat} {d : Diff}
    (h : Recorded p fs before after context d) :
    (d.paths.map List.length).sum ≤ before.length + after.length ∧
    d.clumpsIn ≤ fs.sizeAt before + fs.sizeAt after ∧ d.itemsIn ≤ fs.sizeAt before + fs.sizeAt after ∧
    d.bytesIn ≤ fs.sizeAt before + fs.sizeAt after := by
  have size : ∀ {path : Path} {b : List UInt8}, fs.contentAt path = some ⟨b, false⟩ → fs.sizeAt path = b.length := by
    intro path b hb
    unfold FS.sizeAt
    rw [hb]
    rfl
  have lines : ∀ s : Str, (splitInclusive s).length ≤ s.bytes.length ∧ (bytesOf (splitInclusive s)).length = s.bytes.length :=
    fun s => ⟨length_splitInclusive_le s, by
      show ((splitInclusive s).flatMap Str.bytes).length = _
      rw [flatMap_bytes, flatten_splitInclusive]⟩
  cases d with
  | textChange d =>
    obtain ⟨h1, h2, s, t, h3, h4, h5⟩ := h
    obtain ⟨g1, g2, g3, g4, g5⟩ := C109_sides p _ _ _ _ h5
    have := lines s
    have := lines t
    rw [size h3, size h4]
    simp only [Diff.paths, Diff.clumpsIn, Diff.itemsIn, Diff.bytesIn, List.map_cons, List.map_nil, List.sum_cons, List.sum_nil,
      sum_pairs, h1, h2]
    refine ⟨by omega, by omega, by omega, by omega⟩
  | byteChange d =>
    obtain ⟨h1, h2, -, s, t, h3, h4, h5⟩ := h
    obtain ⟨g1, g2, g3, g4, g5⟩ := C109_sides p _ _ _ _ h5
    rw [size h3, size h4]
    simp only [Diff.paths, Diff.clumpsIn, Diff.itemsIn, Diff.bytesIn, List.map_cons, List.map_nil, List.sum_cons, List.sum_nil,
      sum_pairs, h1, h2]
    refine ⟨by omega, by omega, by omega, by omega⟩
  | textAdd d =>
    obtain ⟨h1, s, h3, h4⟩ := h
    have := lines s
    rw [size h3]
    simp only [Diff.paths, Diff.clumpsIn, Diff.itemsIn, Diff.bytesIn, List.map_cons, List.map_nil, List.sum_cons, List.sum_nil, h1, h4]
    refine ⟨by omega, by omega, by omega, by omega⟩
  | textRemove d =>
    obtain ⟨h1, s, h3, h4⟩ := h
    have := lines s
    rw [size h3]
    simp only [Diff.paths, Diff.clumpsIn, Diff.itemsIn, Diff.bytesIn, List.map_cons, List.map_nil, List.sum_cons, List.sum_nil, h1, h4]
    refine ⟨by omega, by omega, by omega, by omega⟩
  | byteAdd d =>
    obtain ⟨h1, -, h3⟩ := h
    rw [size h3]
    simp only [Diff.paths, Diff.clumpsIn, Diff.itemsIn, Diff.bytesIn, List.map_cons, List.map_nil, List.sum_cons, List.sum_nil, h1]
    refine ⟨by omega, by omega, by omega, by omega⟩
  | byteRemove d =>
    obtain ⟨h1, -, h3⟩ := h
    rw [size h3]
    simp only [Diff.paths, Diff.clumpsIn, Diff.itemsIn, Diff.bytesIn, List.map_cons, List.map_nil, List.sum_cons, List.sum_nil, h1]
    refine ⟨by omega, by omega, by omega, by omega⟩

theorem writable_length (path : Path) : (Json.writable path).length ≤ path.length := by
  unfold Json.writable
  split
  · exact Nat.le_refl _
  · exact Nat.zero_le _

theorem writable_sizes (d : Diff) : (d.writable.paths.map List.length).sum ≤ (d.paths.map List.length).sum ∧
    d.writable.clumpsIn = d.clumpsIn ∧ d.writable.itemsIn = d.itemsIn ∧ d.writable.bytesIn = d.bytesIn := by
  have := writable_length
  cases d with
  | textChange d | byteChange d =>
    refine ⟨?_, rfl, rfl, rfl⟩
    have h1 := this d.beforePath
    have h2 := this d.afterPath
    simp only [Diff.writable, Diff.paths, List.map_cons, List.map_nil, List.sum_cons, List.sum_nil]
    omega
  | textAdd d | textRemove d | byteAdd d | byteRemove d =>
    refine ⟨?_, rfl, rfl, rfl⟩
    have h1 := this d.path
    simp only [Diff.writable, Diff.paths, List.map_cons, List.map_nil, List.sum_cons, List.sum_nil]
    omega

/-- The same for what is written of the diff, also if writing it fails. -/
theorem C109_written (d : Diff) (hd : d.InRange) :
    d.toWriter.run.2.length ≤
      120 + 6 * (d.paths.map List.length).sum + 292 * d.clumpsIn + 16 * d.itemsIn + 6 * d.bytesIn := by
  have h1 := C109_text d.writable (Diff.writable_inRange hd)
  obtain ⟨g1, g2, g3, g4⟩ := writable_sizes d
  rw [g2, g3, g4] at h1
  have h2 := (toWriter_fromReader d.writable (Diff.writable_inRange hd) d.writable_paths).1
  obtain ⟨o, r, o', e1, e2, h⟩ := stops_toWriter d
  have ho : o' = (Json.text 0 (Json.ofDiff d.writable)).bytes := by
    have := e2.symm.trans h2
    have := congrArg (fun m => m.run.2) this
    simp only [WM.run_emit] at this
    exact this
  have hr : d.toWriter.run.2 = o := by
    rw [e1, WM.run_emit]
  have hl : o.length ≤ o'.length := by
    rcases h with ⟨-, rfl⟩ | ⟨-, t, -, rfl⟩
    · exact Nat.le_refl _
    · simp
  rw [hr]
  rw [ho] at hl
  omega

/-- Whatever goes wrong and however it ends: what `pw_diff` writes is at most a fixed multiple of the sizes of the two files. -/
theorem C109_pwDiff (p : Profile) (before after : Path) (context : Nat) (w : World) (hctx : context ≤ 255)
    (hb : w.fs.sizeAt before < 2 ^ 64) (ha : w.fs.sizeAt after < 2 ^ 64) :
    ∃ out, ((pwDiff p before after context).run w).2.stdout = w.stdout ++ out ∧
      out.length ≤ 314 * (w.fs.sizeAt before + w.fs.sizeAt after) + 6 * (before.length + after.length) + 120 := by
  rcases pwDiff_stdout p before after context w with h | ⟨d, w1, n, h1, h2⟩
  · exact ⟨[], by rw [h, List.append_nil], Nat.zero_le _⟩
  · refine ⟨_, h2, ?_⟩
    have hr := (C75_partial p before after context w w1 d h1).2
    have size : ∀ {path : Path} {r : Reader}, w.fs.contentAt path = some r → w.fs.sizeAt path = r.data.length := by
      intro path b hb
      unfold FS.sizeAt
      rw [hb]
      rfl
    have hw := C109_written d (hr.inRange hctx (fun r h => by rw [← size h]; exact hb) (fun r h => by rw [← size h]; exact ha))
    obtain ⟨g1, g2, g3, g4⟩ := recorded_size hr
    rw [List.length_take]
    omega

/-- A diff with one clump: the size of its text without the two paths, and the bound. -/
example : ∃ cs, diffClumps .debug [ln 'a', ln 'b', ln 'c'] [ln 'a', ln 'x', ln 'y', ln 'c'] 1 = .ok cs ∧
    (cs.map fun c => c.before.items.length).sum = 3 ∧ (cs.map fun c => c.after.items.length).sum = 4 ∧
    (Json.text 2 (.arr (cs.map (Json.ofClump .str)))).length = 389 ∧
    292 * cs.length + 16 * 7 + 6 * 14 = 488 := by
  refine ⟨_, rfl, ?_⟩
  decide +kernel

example := C109_sides .debug [ln 'a', ln 'b', ln 'c'] [ln 'a', ln 'x', ln 'y', ln 'c'] 1
  [⟨(1, 1), ⟨0, [ln 'a', ln 'b', ln 'c']⟩, ⟨0, [ln 'a', ln 'x', ln 'y', ln 'c']⟩⟩] (by decide +kernel)
example := C109_text exampleAdd trivial
example := C109_written exampleAdd trivial

end PwDiff
