import Verif.Proofs.JsonPrefix

/-! # What is written of a diff whose paths cannot be written -/

namespace PwDiff

namespace Json

/-- `m` writes what `n` writes, or fails after a proper initial part of it. -/
def Stops (m n : WM Unit) : Prop :=
  ∃ o r o', m = WM.emit o r ∧ n = WM.emit o' (.ok ()) ∧ ((r = .ok () ∧ o = o') ∨ (r = .ioErr ∧ ∃ t, t ≠ [] ∧ o' = o ++ t))

theorem stops_put (s : Str) : Stops (put s) (put s) := ⟨_, _, _, put_eq s, put_eq s, .inl ⟨rfl, rfl⟩⟩

theorem Stops.and {m n m' n' : WM Unit} (h1 : Stops m m') (h2 : Stops n n') :
    Stops (m >>= fun _ => n) (m' >>= fun _ => n') := by
  obtain ⟨o1, r1, o1', rfl, rfl, h1⟩ := h1
  obtain ⟨o2, r2, o2', rfl, rfl, h2⟩ := h2
  have e : (WM.emit o1' (.ok ()) >>= fun _ => WM.emit o2' (.ok ())) = WM.emit (o1' ++ o2') (.ok ()) := WM.emit_bind_ok _ _ _ rfl
  rcases h1 with ⟨rfl, rfl⟩ | ⟨rfl, t, ht, rfl⟩
  · refine ⟨o1 ++ o2, r2, o1 ++ o2', WM.emit_bind_ok _ _ _ rfl, e, ?_⟩
    rcases h2 with ⟨h2, rfl⟩ | ⟨h2, t, ht, rfl⟩
    · exact .inl ⟨h2, rfl⟩
    · exact .inr ⟨h2, t, ht, by simp⟩
  · exact ⟨o1, .ioErr, _, WM.emit_bind_ioErr _ _, e, .inr ⟨rfl, t ++ o2', by simp [ht], by simp⟩⟩

theorem stops_clean {v : Json} (h : Clean v) (level : Nat) : Stops (write level v) (write level v) := by
  obtain ⟨o, r, h1, h2⟩ := ends_write level v
  rcases h2 with ⟨-, rfl⟩ | ⟨h2, -⟩
  · exact ⟨o, _, o, h1, h1, .inl ⟨rfl, rfl⟩⟩
  · exact absurd h h2

/-- The path itself if it can be written, otherwise the empty path. -/
noncomputable def writable (path : Path) : Path :=
  open Classical in if IsUtf8 path then path else []

theorem writable_utf8 (path : Path) : IsUtf8 (writable path) := by
  unfold writable
  split
  · assumption
  · exact ⟨[], rfl⟩

theorem quote_ne (s : Str) : (quote s).bytes ≠ [] := by
  intro h
  have := congrArg decodeUtf8 h
  rw [decodeUtf8_bytes, show ([] : List UInt8) = Str.bytes [] from rfl, decodeUtf8_bytes] at this
  simp [quote] at this

theorem stops_path (path : Path) (level : Nat) : Stops (write level (ofPath path)) (write level (ofPath (writable path))) := by
  unfold writable
  by_cases h : IsUtf8 path
  · rw [if_pos h]
    exact stops_clean ((clean_path path).2 h) level
  · rw [if_neg h, ofPath_not_utf8 h, show ofPath [] = .str [] from ofPath_utf8 (s := []) rfl]
    refine ⟨[], .ioErr, (quote []).bytes, ?_, ?_, .inr ⟨rfl, _, quote_ne _, rfl⟩⟩
    · unfold write
      exact WM.lift_eq_emit _
    · unfold write
      exact put_eq _

/-- The same fields with values that are written alike. -/
inductive Alike : List (Str × Json) → List (Str × Json) → Prop
  | nil : Alike [] []
  | cons (k : Str) {x y : Json} {xs ys : List (Str × Json)} (h : ∀ level, Stops (write level x) (write level y))
      (t : Alike xs ys) : Alike ((k, x) :: xs) ((k, y) :: ys)

theorem Alike.writeFields {xs ys : List (Str × Json)} (h : Alike xs ys) (level : Nat) :
    Stops (writeFields level xs) (writeFields level ys) := by
  induction h with
  | nil => exact stops_put _
  | cons k h t ih =>
    unfold Json.writeFields
    exact (stops_put _).and ((stops_put _).and ((stops_put _).and ((h (level + 1)).and ih)))

theorem Alike.write {xs ys : List (Str × Json)} (h : Alike xs ys) (level : Nat) :
    Stops (write level (.obj xs)) (write level (.obj ys)) := by
  cases h with
  | nil => exact stops_put _
  | cons k h t =>
    unfold Json.write
    exact (stops_put _).and ((stops_put _).and ((stops_put _).and ((h (level + 1)).and (t.writeFields level))))

end Json

open Json

/-- The diff with paths that can be written. -/
noncomputable def Diff.writable : Diff → Diff
  | .textChange d => .textChange { d with beforePath := Json.writable d.beforePath, afterPath := Json.writable d.afterPath }
  | .byteChange d => .byteChange { d with beforePath := Json.writable d.beforePath, afterPath := Json.writable d.afterPath }
  | .textAdd d => .textAdd { d with path := Json.writable d.path }
  | .textRemove d => .textRemove { d with path := Json.writable d.path }
  | .byteAdd d => .byteAdd { d with path := Json.writable d.path }
  | .byteRemove d => .byteRemove { d with path := Json.writable d.path }

theorem Diff.writable_paths (d : Diff) : ∀ path ∈ d.writable.paths, IsUtf8 path := by
  intro path h
  cases d <;> simp only [Diff.writable, Diff.paths, List.mem_cons, List.not_mem_nil, or_false] at h
  case textChange | byteChange => rcases h with rfl | rfl <;> exact writable_utf8 _
  all_goals (subst h; exact writable_utf8 _)

theorem Diff.writable_inRange {d : Diff} (h : d.InRange) : d.writable.InRange := by
  cases d <;> exact h

theorem stops_toWriter (d : Diff) : Stops d.toWriter d.writable.toWriter := by
  have str : ∀ l : List Str, Clean (.arr (l.map .str)) := fun l => by
    simp only [Clean]
    exact cleanItems_map _ _ (fun x => by simp [Clean])
  have byte : ∀ l : List UInt8, Clean (.arr (l.map ofByte)) := fun l => by
    simp only [Clean]
    exact cleanItems_map _ _ (fun x => by simp [Clean, ofByte])
  have one : ∀ (k : Str) {xs ys : List (Str × Json)}, Alike xs ys → Stops (write 0 (.obj [(k, .obj xs)])) (write 0 (.obj [(k, .obj ys)])) :=
    fun k _ _ h => (Alike.cons k h.write .nil).write 0
  unfold Diff.toWriter
  cases d with
  | textChange d =>
    refine one _ (.cons _ (stops_path _) (.cons _ (stops_path _) (.cons _ (stops_clean ?_) .nil)))
    simp only [Clean]
    exact cleanItems_map _ _ (fun c => clean_clump _ (fun x => by simp [Clean]) c)
  | byteChange d =>
    refine one _ (.cons _ (stops_path _) (.cons _ (stops_path _) (.cons _ (stops_clean trivial) (.cons _ (stops_clean ?_) .nil))))
    simp only [Clean]
    exact cleanItems_map _ _ (fun c => clean_clump _ (fun x => by simp [Clean, ofByte]) c)
  | textAdd d => exact one _ (.cons _ (stops_path _) (.cons _ (stops_clean (str _)) .nil))
  | textRemove d => exact one _ (.cons _ (stops_path _) (.cons _ (stops_clean (str _)) .nil))
  | byteAdd d => exact one _ (.cons _ (stops_path _) (.cons _ (stops_clean trivial) (.cons _ (stops_clean (byte _)) .nil)))
  | byteRemove d => exact one _ (.cons _ (stops_path _) (.cons _ (stops_clean trivial) (.cons _ (stops_clean (byte _)) .nil)))

/-- Whatever part of what `to_writer` writes is read: it is the diff, and nothing is missing, or it is refused. -/
theorem fromReader_part (d : Diff) (hd : d.InRange) (n : Nat) :
    (Diff.fromReader ⟨d.toWriter.run.2.take n, false⟩ = .ok d ∧ d.toWriter.run.2.take n = d.toWriter.run.2) ∨
      Diff.fromReader ⟨d.toWriter.run.2.take n, false⟩ = .ioErr := by
  obtain ⟨h1, h2⟩ := toWriter_fromReader d.writable (Diff.writable_inRange hd) d.writable_paths
  obtain ⟨o, r, o', e1, e2, h⟩ := stops_toWriter d
  have ho : o' = (Json.text 0 (Json.ofDiff d.writable)).bytes := by
    rw [e2] at h1
    have := congrArg (fun m => (WM.run m).2) h1
    simpa only [WM.run_emit] using this
  have cutOff : ∀ bs t, o' = bs ++ t → t ≠ [] → Diff.fromReader ⟨bs, false⟩ = .ioErr := fun bs t h ht =>
    fromReader_truncated d.writable (Diff.writable_inRange hd) d.writable_paths (h.symm.trans ho) ht
  rw [e1, WM.run_emit]
  rcases h with ⟨rfl, rfl⟩ | ⟨rfl, t, ht, rfl⟩
  · by_cases hn : o.drop n = []
    · left
      have hp : ∀ path ∈ d.paths, IsUtf8 path := by
        obtain ⟨o2, r2, g1, g2⟩ := ends_toWriter d
        rcases g2 with ⟨g, -⟩ | ⟨-, rfl⟩
        · exact g
        · rw [e1] at g1
          have := congrArg (fun m => (WM.run m).1) g1
          simp only [WM.run_emit] at this
          cases this
      have ht : o.take n = o := by
        have := List.take_append_drop n o
        rwa [hn, List.append_nil] at this
      have g := toWriter_fromReader d hd hp
      have : o = (Json.text 0 (Json.ofDiff d)).bytes := by
        have := congrArg (fun m => (WM.run m).2) (e1.symm.trans g.1)
        simpa only [WM.run_emit] using this
      simp only [ht]
      rw [this]
      exact ⟨g.2, trivial⟩
    · exact .inr (cutOff _ _ (List.take_append_drop n o).symm hn)
  · refine .inr (cutOff _ (o.drop n ++ t) ?_ (by simp [ht]))
    simp only
    rw [← List.append_assoc, List.take_append_drop]

end PwDiff
