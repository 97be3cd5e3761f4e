import Verif.Proofs.JsonGrammar
import Verif.Proofs.DiffJson

/-! # The documents that are read as diffs -/

namespace PwDiff.Json

/-- The value of the only field with a name. -/
def lookupOnce (fs : List (Str × Json)) (name : Str) : Option Json :=
  match fs.filter fun f => f.1 = name with
  | [f] => some f.2
  | _ => none

theorem lookupOnce_iff (fs : List (Str × Json)) (name : Str) (v : Json) : lookupOnce fs name = some v ↔ Once name v fs := by
  unfold lookupOnce
  constructor
  · intro h
    split at h
    · next f hf =>
      cases h
      have hm : f ∈ fs.filter fun f => f.1 = name := by rw [hf]; simp
      obtain ⟨hm1, hm2⟩ := List.mem_filter.1 hm
      obtain ⟨pre, post, rfl⟩ := List.append_of_mem hm1
      have hm2 : f.1 = name := by simpa using hm2
      refine ⟨pre, post, by rw [← hm2], ?_⟩
      rw [List.filter_append, List.filter_cons_of_pos (by simp [hm2])] at hf
      have hl := congrArg List.length hf
      simp only [List.length_append, List.length_cons, List.length_nil] at hl
      intro g hg hgn
      rcases List.mem_append.1 hg with hg | hg
      · have := List.length_pos_of_mem (List.mem_filter.2 ⟨hg, by simpa using hgn⟩ : g ∈ pre.filter fun f => f.1 = name)
        omega
      · have := List.length_pos_of_mem (List.mem_filter.2 ⟨hg, by simpa using hgn⟩ : g ∈ post.filter fun f => f.1 = name)
        omega
    · cases h
  · rintro ⟨pre, post, rfl, h⟩
    have h1 : pre.filter (fun f => f.1 = name) = [] := by
      rw [List.filter_eq_nil_iff]
      intro f hf
      simpa using h f (by simp [hf])
    have h2 : post.filter (fun f => f.1 = name) = [] := by
      rw [List.filter_eq_nil_iff]
      intro f hf
      simpa using h f (by simp [hf])
    rw [List.filter_append, List.filter_cons_of_pos (by simp), h1, h2]
    rfl

theorem mapM_some_iff {α β : Type} (f : α → Option β) (l : List α) (r : List β) :
    l.mapM f = some r ↔ r.length = l.length ∧ ∀ (i : Nat) x y, l[i]? = some x → r[i]? = some y → f x = some y := by
  induction l generalizing r with
  | nil =>
    rw [List.mapM_nil]
    constructor
    · intro h; cases h; simp
    · rintro ⟨h, -⟩
      rw [List.length_nil] at h
      rw [List.length_eq_zero_iff.1 h]
      rfl
  | cons a l ih =>
    rw [List.mapM_cons]
    constructor
    · intro h
      cases ha : f a with
      | none => rw [ha] at h; cases h
      | some b =>
        rw [ha] at h
        cases hl : l.mapM f with
        | none => rw [hl] at h; cases h
        | some bs =>
          rw [hl] at h
          cases h
          obtain ⟨h1, h2⟩ := (ih bs).1 hl
          refine ⟨by simp [h1], ?_⟩
          intro i x y hx hy
          cases i with
          | zero =>
            rw [List.getElem?_cons_zero] at hx hy
            cases hx; cases hy; exact ha
          | succ i =>
            rw [List.getElem?_cons_succ] at hx hy
            exact h2 i x y hx hy
    · rintro ⟨h1, h2⟩
      cases r with
      | nil => cases h1
      | cons b bs =>
        rw [h2 0 a b rfl rfl, (ih bs).2 ⟨by simpa using h1, fun i x y hx hy => h2 (i + 1) x y hx hy⟩]
        rfl

theorem fields_iff (names : List Str) (j : Json) (vs : List Json) :
    fields names j = some vs ↔ vs.length = names.length ∧ IsStruct (names.zip vs) j := by
  constructor
  · intro h
    unfold fields at h
    split at h
    · next fs =>
      obtain ⟨h1, h2⟩ := (mapM_some_iff (lookupOnce fs) names vs).1 h
      refine ⟨h1, .inl ⟨fs, rfl, ?_⟩⟩
      rintro ⟨k, v⟩ hf
      obtain ⟨i, hi, he⟩ := List.mem_iff_getElem.1 hf
      rw [List.getElem_zip] at he
      rw [List.length_zip] at hi
      injection he with e1 e2
      rw [← lookupOnce_iff]
      exact h2 i _ _ (List.getElem?_eq_some_iff.2 ⟨by omega, e1⟩) (List.getElem?_eq_some_iff.2 ⟨by omega, e2⟩)
    · next xs =>
      split at h
      · next hl =>
        cases h
        refine ⟨hl, .inr ?_⟩
        rw [List.map_snd_zip (by omega)]
      · cases h
    · cases h
  · rintro ⟨h1, ⟨fs, rfl, h⟩ | rfl⟩
    · refine (mapM_some_iff (lookupOnce fs) names vs).2 ⟨h1, ?_⟩
      intro i x y hx hy
      refine (lookupOnce_iff ..).2 (h (x, y) ?_)
      obtain ⟨hi, hx⟩ := List.getElem?_eq_some_iff.1 hx
      obtain ⟨hi', hy⟩ := List.getElem?_eq_some_iff.1 hy
      refine List.mem_iff_getElem.2 ⟨i, by rw [List.length_zip]; omega, ?_⟩
      rw [List.getElem_zip, hx, hy]
    · rw [List.map_snd_zip (by omega)]
      unfold fields
      simp only
      rw [if_pos h1]

theorem fields2 {n1 n2 : Str} {j : Json} {vs : List Json} (h : fields [n1, n2] j = some vs) :
    ∃ a b, vs = [a, b] ∧ IsStruct [(n1, a), (n2, b)] j := by
  obtain ⟨h1, h2⟩ := (fields_iff ..).1 h
  match vs, h1 with
  | [a, b], _ => exact ⟨a, b, rfl, h2⟩

theorem fields3 {n1 n2 n3 : Str} {j : Json} {vs : List Json} (h : fields [n1, n2, n3] j = some vs) :
    ∃ a b c, vs = [a, b, c] ∧ IsStruct [(n1, a), (n2, b), (n3, c)] j := by
  obtain ⟨h1, h2⟩ := (fields_iff ..).1 h
  match vs, h1 with
  | [a, b, c], _ => exact ⟨a, b, c, rfl, h2⟩

theorem fields4 {n1 n2 n3 n4 : Str} {j : Json} {vs : List Json} (h : fields [n1, n2, n3, n4] j = some vs) :
    ∃ a b c d, vs = [a, b, c, d] ∧ IsStruct [(n1, a), (n2, b), (n3, c), (n4, d)] j := by
  obtain ⟨h1, h2⟩ := (fields_iff ..).1 h
  match vs, h1 with
  | [a, b, c, d], _ => exact ⟨a, b, c, d, rfl, h2⟩

theorem IsStruct.fields2 {n1 n2 : Str} {a b j : Json} (h : IsStruct [(n1, a), (n2, b)] j) : fields [n1, n2] j = some [a, b] :=
  (fields_iff ..).2 ⟨rfl, h⟩
theorem IsStruct.fields3 {n1 n2 n3 : Str} {a b c j : Json} (h : IsStruct [(n1, a), (n2, b), (n3, c)] j) :
    fields [n1, n2, n3] j = some [a, b, c] := (fields_iff ..).2 ⟨rfl, h⟩
theorem IsStruct.fields4 {n1 n2 n3 n4 : Str} {a b c d j : Json} (h : IsStruct [(n1, a), (n2, b), (n3, c), (n4, d)] j) :
    fields [n1, n2, n3, n4] j = some [a, b, c, d] := (fields_iff ..).2 ⟨rfl, h⟩

theorem toNatBelow_iff (limit : Nat) (j : Json) (n : Nat) : toNatBelow limit j = some n ↔ n < limit ∧ j = .nat n := by
  unfold toNatBelow
  split
  · next m =>
    split
    · next h =>
      constructor
      · intro e; cases e; exact ⟨h, rfl⟩
      · rintro ⟨-, e⟩; cases e; rfl
    · next h =>
      constructor
      · intro e; cases e
      · rintro ⟨h', e⟩; cases e; exact absurd h' h
  · next hn =>
    constructor
    · intro e; cases e
    · rintro ⟨-, rfl⟩; exact absurd rfl (hn n)

theorem toStr_iff (j : Json) (s : Str) : toStr j = some s ↔ IsLine s j := by
  unfold toStr IsLine
  split
  · simp
  · next hn =>
    constructor
    · intro e; cases e
    · rintro rfl; exact absurd rfl (hn s)

theorem toBool_iff (j : Json) (b : Bool) : toBool j = some b ↔ j = .bool b := by
  unfold toBool
  split
  · simp
  · next hn =>
    constructor
    · intro e; cases e
    · rintro rfl; exact absurd rfl (hn b)

theorem toByte_iff (j : Json) (b : UInt8) : toByte j = some b ↔ IsByte b j := by
  unfold toByte IsByte
  rw [Option.map_eq_some_iff]
  constructor
  · rintro ⟨n, h, rfl⟩
    obtain ⟨h1, rfl⟩ := (toNatBelow_iff ..).1 h
    rw [UInt8.toNat_ofNat_of_lt' (by simpa using h1)]
  · rintro rfl
    exact ⟨b.toNat, (toNatBelow_iff ..).2 ⟨b.toNat_lt, rfl⟩, by simp⟩

theorem toPath_iff (j : Json) (path : Path) : toPath j = some path ↔ IsPath path j := by
  unfold toPath IsPath
  rw [Option.map_eq_some_iff]
  constructor
  · rintro ⟨s, h, rfl⟩
    exact ⟨s, rfl, (toStr_iff ..).1 h⟩
  · rintro ⟨s, rfl, rfl⟩
    exact ⟨s, rfl, rfl⟩

theorem toList_iff {T : Type} {item : Json → Option T} {P : T → Json → Prop} (h : ∀ j x, item j = some x ↔ P x j) (j : Json)
    (l : List T) : toList item j = some l ↔ IsList P l j := by
  unfold toList IsList
  split
  · next xs =>
    rw [mapM_some_iff]
    constructor
    · rintro ⟨h1, h2⟩
      exact ⟨xs, rfl, h1.symm, fun i x y hx hy => (h ..).1 (h2 i y x hy hx)⟩
    · rintro ⟨xs', e, h1, h2⟩
      cases e
      exact ⟨h1.symm, fun i x y hx hy => (h ..).2 (h2 i y x hy hx)⟩
  · next hn =>
    constructor
    · intro e; cases e
    · rintro ⟨xs, rfl, -⟩; exact absurd rfl (hn xs)

theorem toSnippet_iff {T : Type} {item : Json → Option T} {P : T → Json → Prop} (h : ∀ j x, item j = some x ↔ P x j) (j : Json)
    (s : Snippet T) : toSnippet item j = some s ↔ IsSnippet P s j := by
  unfold toSnippet IsSnippet
  constructor
  · intro hs
    cases hf : fields [kStart, kItems] j with
    | none => rw [hf] at hs; cases hs
    | some vs =>
      obtain ⟨a, b, rfl, hst⟩ := fields2 hf
      rw [hf] at hs
      simp only [Option.bind_eq_bind, Option.bind_some, Option.bind_eq_some_iff, Option.pure_def, Option.some.injEq] at hs
      obtain ⟨n, h1, l, h2, rfl⟩ := hs
      exact ⟨a, b, hst, (toNatBelow_iff ..).1 h1, (toList_iff h ..).1 h2⟩
  · rintro ⟨a, b, hst, h1, h2⟩
    have e := hst.fields2
    change fields [kStart, kItems] j = _ at e
    rw [e]
    simp only [Option.bind_eq_bind, Option.bind_some]
    rw [(toNatBelow_iff wordSize a s.start).2 h1, (toList_iff h ..).2 h2]
    rfl

theorem toPair_iff (j : Json) (x : Nat × Nat) :
    toPair j = some x ↔ j = .arr [.nat x.1, .nat x.2] ∧ x.1 < 256 ∧ x.2 < 256 := by
  unfold toPair
  split
  · next a b =>
    simp only [Option.bind_eq_bind, Option.bind_eq_some_iff, Option.pure_def, Option.some.injEq, toNatBelow_iff]
    constructor
    · rintro ⟨m, ⟨h1, rfl⟩, n, ⟨h2, rfl⟩, rfl⟩
      exact ⟨rfl, h1, h2⟩
    · rintro ⟨e, h1, h2⟩
      cases e
      exact ⟨x.1, ⟨h1, rfl⟩, x.2, ⟨h2, rfl⟩, rfl⟩
  · next hn =>
    constructor
    · intro e; cases e
    · rintro ⟨rfl, -⟩; exact absurd rfl (hn _ _)

theorem toClump_iff {T : Type} {item : Json → Option T} {P : T → Json → Prop} (h : ∀ j x, item j = some x ↔ P x j) (j : Json)
    (c : DiffClump T) : toClump item j = some c ↔ IsClump P c j := by
  unfold toClump IsClump
  constructor
  · intro hs
    cases hf : fields [kContextLengths, kBefore, kAfter] j with
    | none => rw [hf] at hs; cases hs
    | some vs =>
      obtain ⟨x, a, b, rfl, hst⟩ := fields3 hf
      rw [hf] at hs
      simp only [Option.bind_eq_bind, Option.bind_some, Option.bind_eq_some_iff, Option.pure_def, Option.some.injEq] at hs
      obtain ⟨n, h1, s, h2, t, h3, rfl⟩ := hs
      obtain ⟨rfl, h4, h5⟩ := (toPair_iff ..).1 h1
      exact ⟨a, b, n.1, n.2, hst, h4, h5, rfl, (toSnippet_iff h ..).1 h2, (toSnippet_iff h ..).1 h3⟩
  · rintro ⟨a, b, x, y, hst, h1, h2, h3, h4, h5⟩
    have e := hst.fields3
    change fields [kContextLengths, kBefore, kAfter] j = _ at e
    rw [e]
    simp only [Option.bind_eq_bind, Option.bind_some]
    rw [(toPair_iff _ c.contextLengths).2 ⟨by rw [h3], by rw [h3]; exact h1, by rw [h3]; exact h2⟩,
      (toSnippet_iff h ..).2 h4, (toSnippet_iff h ..).2 h5]
    rfl

theorem toTextChangeDiff_iff (j : Json) (d : TextChangeDiff) : toTextChangeDiff j = some d ↔
    ∃ a b c, IsStruct [("before_path".toList, a), ("after_path".toList, b), ("clumps".toList, c)] j ∧
      IsPath d.beforePath a ∧ IsPath d.afterPath b ∧ IsList (IsClump IsLine) d.clumps c := by
  unfold toTextChangeDiff
  constructor
  · intro hs
    cases hf : fields [kBeforePath, kAfterPath, kClumps] j with
    | none => rw [hf] at hs; cases hs
    | some vs =>
      obtain ⟨a, b, c, rfl, hst⟩ := fields3 hf
      rw [hf] at hs
      simp only [Option.bind_eq_bind, Option.bind_some, Option.bind_eq_some_iff, Option.pure_def, Option.some.injEq] at hs
      obtain ⟨p, h1, q, h2, l, h3, rfl⟩ := hs
      exact ⟨a, b, c, hst, (toPath_iff ..).1 h1, (toPath_iff ..).1 h2, (toList_iff (toClump_iff toStr_iff) ..).1 h3⟩
  · rintro ⟨a, b, c, hst, h1, h2, h3⟩
    have e := hst.fields3
    change fields [kBeforePath, kAfterPath, kClumps] j = _ at e
    rw [e]
    simp only [Option.bind_eq_bind, Option.bind_some]
    rw [(toPath_iff ..).2 h1, (toPath_iff ..).2 h2, (toList_iff (toClump_iff toStr_iff) ..).2 h3]
    rfl

theorem toByteChangeDiff_iff (j : Json) (d : ByteChangeDiff) : toByteChangeDiff j = some d ↔
    ∃ a b c, IsStruct [("before_path".toList, a), ("after_path".toList, b), ("compressed".toList, .bool d.compressed),
        ("clumps".toList, c)] j ∧
      IsPath d.beforePath a ∧ IsPath d.afterPath b ∧ IsList (IsClump IsByte) d.clumps c := by
  unfold toByteChangeDiff
  constructor
  · intro hs
    cases hf : fields [kBeforePath, kAfterPath, kCompressed, kClumps] j with
    | none => rw [hf] at hs; cases hs
    | some vs =>
      obtain ⟨a, b, z, c, rfl, hst⟩ := fields4 hf
      rw [hf] at hs
      simp only [Option.bind_eq_bind, Option.bind_some, Option.bind_eq_some_iff, Option.pure_def, Option.some.injEq] at hs
      obtain ⟨p, h1, q, h2, z', hz, l, h3, rfl⟩ := hs
      obtain rfl := (toBool_iff ..).1 hz
      exact ⟨a, b, c, hst, (toPath_iff ..).1 h1, (toPath_iff ..).1 h2, (toList_iff (toClump_iff toByte_iff) ..).1 h3⟩
  · rintro ⟨a, b, c, hst, h1, h2, h3⟩
    have e := hst.fields4
    change fields [kBeforePath, kAfterPath, kCompressed, kClumps] j = _ at e
    rw [e]
    simp only [Option.bind_eq_bind, Option.bind_some]
    rw [(toPath_iff ..).2 h1, (toPath_iff ..).2 h2, (toBool_iff ..).2 rfl, (toList_iff (toClump_iff toByte_iff) ..).2 h3]
    rfl

theorem toPathAndLines_iff (j : Json) (d : PathAndLines) : toPathAndLines j = some d ↔
    ∃ a b, IsStruct [("path".toList, a), ("lines".toList, b)] j ∧ IsPath d.path a ∧ IsList IsLine d.lines b := by
  unfold toPathAndLines
  constructor
  · intro hs
    cases hf : fields [kPath, kLines] j with
    | none => rw [hf] at hs; cases hs
    | some vs =>
      obtain ⟨a, b, rfl, hst⟩ := fields2 hf
      rw [hf] at hs
      simp only [Option.bind_eq_bind, Option.bind_some, Option.bind_eq_some_iff, Option.pure_def, Option.some.injEq] at hs
      obtain ⟨p, h1, l, h3, rfl⟩ := hs
      exact ⟨a, b, hst, (toPath_iff ..).1 h1, (toList_iff toStr_iff ..).1 h3⟩
  · rintro ⟨a, b, hst, h1, h3⟩
    have e := hst.fields2
    change fields [kPath, kLines] j = _ at e
    rw [e]
    simp only [Option.bind_eq_bind, Option.bind_some]
    rw [(toPath_iff ..).2 h1, (toList_iff toStr_iff ..).2 h3]
    rfl

theorem toPathAndBytes_iff (j : Json) (d : PathAndBytes) : toPathAndBytes j = some d ↔
    ∃ a b, IsStruct [("path".toList, a), ("compressed".toList, .bool d.compressed), ("bytes".toList, b)] j ∧
      IsPath d.path a ∧ IsList IsByte d.bytes b := by
  unfold toPathAndBytes
  constructor
  · intro hs
    cases hf : fields [kPath, kCompressed, kBytes] j with
    | none => rw [hf] at hs; cases hs
    | some vs =>
      obtain ⟨a, z, b, rfl, hst⟩ := fields3 hf
      rw [hf] at hs
      simp only [Option.bind_eq_bind, Option.bind_some, Option.bind_eq_some_iff, Option.pure_def, Option.some.injEq] at hs
      obtain ⟨p, h1, z', hz, l, h3, rfl⟩ := hs
      obtain rfl := (toBool_iff ..).1 hz
      exact ⟨a, b, hst, (toPath_iff ..).1 h1, (toList_iff toByte_iff ..).1 h3⟩
  · rintro ⟨a, b, hst, h1, h3⟩
    have e := hst.fields3
    change fields [kPath, kCompressed, kBytes] j = _ at e
    rw [e]
    simp only [Option.bind_eq_bind, Option.bind_some]
    rw [(toPath_iff ..).2 h1, (toBool_iff ..).2 rfl, (toList_iff toByte_iff ..).2 h3]
    rfl

theorem toDiff_iff (j : Json) (d : Diff) : toDiff j = some d ↔ StandsFor d j := by
  constructor
  · intro h
    unfold toDiff at h
    split at h
    · next k v =>
      split at h
      · next hk =>
        subst hk
        obtain ⟨x, hx, rfl⟩ := Option.map_eq_some_iff.1 h
        obtain ⟨a, b, c, h1, h2, h3, h4⟩ := (toTextChangeDiff_iff ..).1 hx
        exact .textChange h1 h2 h3 h4
      split at h
      · next hk =>
        subst hk
        obtain ⟨x, hx, rfl⟩ := Option.map_eq_some_iff.1 h
        obtain ⟨a, b, h1, h2, h3⟩ := (toPathAndLines_iff ..).1 hx
        exact .textAdd h1 h2 h3
      split at h
      · next hk =>
        subst hk
        obtain ⟨x, hx, rfl⟩ := Option.map_eq_some_iff.1 h
        obtain ⟨a, b, h1, h2, h3⟩ := (toPathAndLines_iff ..).1 hx
        exact .textRemove h1 h2 h3
      split at h
      · next hk =>
        subst hk
        obtain ⟨x, hx, rfl⟩ := Option.map_eq_some_iff.1 h
        obtain ⟨a, b, c, h1, h2, h3, h4⟩ := (toByteChangeDiff_iff ..).1 hx
        exact .byteChange h1 h2 h3 h4
      split at h
      · next hk =>
        subst hk
        obtain ⟨x, hx, rfl⟩ := Option.map_eq_some_iff.1 h
        obtain ⟨a, b, h1, h2, h3⟩ := (toPathAndBytes_iff ..).1 hx
        exact .byteAdd h1 h2 h3
      split at h
      · next hk =>
        subst hk
        obtain ⟨x, hx, rfl⟩ := Option.map_eq_some_iff.1 h
        obtain ⟨a, b, h1, h2, h3⟩ := (toPathAndBytes_iff ..).1 hx
        exact .byteRemove h1 h2 h3
      · cases h
    · cases h
  · intro h
    cases h with
    | @textChange d j a b c h1 h2 h3 h4 =>
      show (toTextChangeDiff j).map Diff.textChange = _
      rw [(toTextChangeDiff_iff j d).2 ⟨a, b, c, h1, h2, h3, h4⟩]
      rfl
    | @textAdd d j a b h1 h2 h3 =>
      show (toPathAndLines j).map Diff.textAdd = _
      rw [(toPathAndLines_iff j d).2 ⟨a, b, h1, h2, h3⟩]
      rfl
    | @textRemove d j a b h1 h2 h3 =>
      show (toPathAndLines j).map Diff.textRemove = _
      rw [(toPathAndLines_iff j d).2 ⟨a, b, h1, h2, h3⟩]
      rfl
    | @byteChange d j a b c h1 h2 h3 h4 =>
      show (toByteChangeDiff j).map Diff.byteChange = _
      rw [(toByteChangeDiff_iff j d).2 ⟨a, b, c, h1, h2, h3, h4⟩]
      rfl
    | @byteAdd d j a b h1 h2 h3 =>
      show (toPathAndBytes j).map Diff.byteAdd = _
      rw [(toPathAndBytes_iff j d).2 ⟨a, b, h1, h2, h3⟩]
      rfl
    | @byteRemove d j a b h1 h2 h3 =>
      show (toPathAndBytes j).map Diff.byteRemove = _
      rw [(toPathAndBytes_iff j d).2 ⟨a, b, h1, h2, h3⟩]
      rfl

/-! ## Their values fit the types -/

theorem IsList.mem {T : Type} {P : T → Json → Prop} {l : List T} {j : Json} (h : IsList P l j) {x : T} (hx : x ∈ l) :
    ∃ y, P x y := by
  obtain ⟨xs, -, h1, h2⟩ := h
  obtain ⟨i, hi, he⟩ := List.mem_iff_getElem.1 hx
  exact ⟨xs[i]'(by omega), h2 i x _ (List.getElem?_eq_some_iff.2 ⟨hi, he⟩) (List.getElem?_eq_some_iff.2 ⟨by omega, rfl⟩)⟩

theorem IsClump.inRange {T : Type} {P : T → Json → Prop} {c : DiffClump T} {j : Json} (h : IsClump P c j) : c.InRange := by
  obtain ⟨a, b, x, y, -, h1, h2, h3, ⟨_, _, -, ⟨h4, -⟩, -⟩, ⟨_, _, -, ⟨h5, -⟩, -⟩⟩ := h
  refine ⟨?_, ?_, h4, h5⟩ <;> rw [h3] <;> assumption

theorem StandsFor.inRange {d : Diff} {j : Json} (h : StandsFor d j) : d.InRange := by
  cases h with
  | textChange _ _ _ h => exact fun c hc => (h.mem hc).elim fun _ h => h.inRange
  | byteChange _ _ _ h => exact fun c hc => (h.mem hc).elim fun _ h => h.inRange
  | _ => trivial

theorem IsPath.isUtf8 {path : Path} {j : Json} (h : IsPath path j) : IsUtf8 path := by
  obtain ⟨s, rfl, -⟩ := h
  exact ⟨s, rfl⟩

theorem StandsFor.paths {d : Diff} {j : Json} (h : StandsFor d j) : ∀ path ∈ d.paths, IsUtf8 path := by
  intro path hp
  cases h with
  | textChange _ h1 h2 _ | byteChange _ h1 h2 _ =>
    rcases List.mem_cons.1 hp with rfl | hp
    · exact h1.isUtf8
    · rw [List.mem_singleton.1 hp]; exact h2.isUtf8
  | textAdd _ h _ | textRemove _ h _ | byteAdd _ h _ | byteRemove _ h _ =>
    rw [List.mem_singleton.1 hp]; exact h.isUtf8

end PwDiff.Json
