import Verif.Proofs.CommandLine
import Verif.Props.Logging
import Verif.Props.Undo
import Verif.Props.Output

/-!
# C111, C112: command lines

What the two programs take from their command line, and what they do with it.  The language of command lines is defined in
`Verif/SpecCommandLine.lean`.
-/

namespace PwDiff

open Sys

/-! ## C111 -/

/-- The arguments are accepted and mean `g`. -/
def Accepted (cli : Cli) (args : List Arg) (g : Given) : Prop := ∃ is, Says cli args is ∧ Means cli is g

/-- Help is asked for: up to there everything is possible, and the options have not been ended by `--`. -/
def HelpAsked (cli : Cli) (args : List Arg) : Prop :=
  ∃ pre a post is js, args = pre ++ a :: post ∧ Says cli pre is ∧ [45, 45] ∉ pre ∧ AsksHelp cli a js ∧ Possible cli (is ++ js)

/-- Which command lines are accepted, and what they mean. -/
theorem C111_language (cli : Cli) (args : List Arg) (g : Given) : cli.parse false args {} = .run g ↔ Accepted cli args g := by
  rw [(parse_run cli args {} g).1]
  unfold Accepted
  constructor
  · rintro ⟨is, h1, h2⟩
    exact ⟨is, h1, (addAll_means_start cli is g).1 h2⟩
  · rintro ⟨is, h1, h2⟩
    exact ⟨is, h1, (addAll_means_start cli is g).2 h2⟩

/-- When the help is printed instead. -/
theorem C111_help (cli : Cli) (args : List Arg) : cli.parse false args {} = .help ↔ HelpAsked cli args := by
  rw [parse_help]
  unfold HelpAsked
  constructor
  · rintro ⟨pre, a, post, is, js, g1, h1, h2, h3, h4, h5⟩
    exact ⟨pre, a, post, is, js, h1, h2, h3, h4, (addAll_possible cli _).1 ⟨g1, h5⟩⟩
  · rintro ⟨pre, a, post, is, js, h1, h2, h3, h4, h5⟩
    obtain ⟨g1, k⟩ := (addAll_possible cli _).2 h5
    exact ⟨pre, a, post, is, js, g1, h1, h2, h3, h4, k⟩

/-- All other command lines are refused. -/
theorem C111_refused (cli : Cli) (args : List Arg) :
    cli.parse false args {} = .error ↔ (∀ g, ¬ Accepted cli args g) ∧ ¬ HelpAsked cli args := by
  rw [← C111_help]
  simp only [← C111_language]
  cases cli.parse false args {} <;> simp

/-- A command line has at most one meaning: what it says is determined, and with it what is taken from it. -/
theorem C111_unambiguous (cli : Cli) (args : List Arg) :
    (∀ is is', Says cli args is → Says cli args is' → is = is') ∧
    (∀ g g', Accepted cli args g → Accepted cli args g' → g = g') ∧
    (∀ g, Accepted cli args g → ¬ HelpAsked cli args) := by
  refine ⟨fun is is' h h' => h.one h', ?_, ?_⟩
  · intro g g' h h'
    have := ((C111_language cli args g).2 h).symm.trans ((C111_language cli args g').2 h')
    exact Parsed.run.inj this
  · intro g h h'
    have := ((C111_language cli args g).2 h).symm.trans ((C111_help cli args).2 h')
    cases this

theorem Says.paths_ne {cli : Cli} {args : List Arg} {is : List Said} (h : Says cli args is) : ∀ p ∈ saidPaths is, p ≠ [] := by
  have hl : ∀ {ls js}, Letters cli ls js → saidPaths js = [] := by
    intro ls js h
    induction h with
    | nil => rfl
    | verbose h ih => exact ih
    | reverse hr h ih => exact ih
  have happ : ∀ is js, saidPaths (is ++ js) = saidPaths is ++ saidPaths js := fun is js => List.filterMap_append
  induction h with
  | nil => intro p hp; cases hp
  | rest ps h =>
    have : saidPaths (ps.map .path) = ps := by
      unfold saidPaths
      rw [List.filterMap_map]
      exact List.filterMap_some
    rw [this]; exact h
  | path p h0 h1 h ih =>
    intro q hq
    rcases List.mem_cons.1 hq with rfl | hq
    · exact h0
    · exact ih q hq
  | verbose h ih => exact ih
  | reverse hr h ih => exact ih
  | contextEq hc hv h ih => exact ih
  | context hc hv hl h ih => exact ih
  | letters h0 h' h ih => rw [happ, hl h']; exact ih
  | lettersValue h' hc hv h ih => rw [happ, hl h']; exact ih
  | lettersEq h' hc hv h ih => rw [happ, hl h']; exact ih
  | lettersNext h' hc hv hn h ih => rw [happ, hl h']; exact ih

theorem Says.options {cli : Cli} {args : List Arg} {is : List Said} (h : Says cli args is) :
    (∀ n ∈ saidContexts is, cli.context = true ∧ n ≤ 255) ∧ (.reverse ∈ is → cli.reverse = true) := by
  have hl : ∀ {ls js}, Letters cli ls js → saidContexts js = [] ∧ (.reverse ∈ js → cli.reverse = true) := by
    intro ls js h
    induction h with
    | nil => exact ⟨rfl, fun h => by cases h⟩
    | verbose h ih =>
      refine ⟨ih.1, fun h => ih.2 ?_⟩
      simpa using h
    | reverse hr h ih => exact ⟨ih.1, fun _ => hr⟩
  have happ : ∀ is js, saidContexts (is ++ js) = saidContexts is ++ saidContexts js := fun is js => List.filterMap_append
  have hw : ∀ {v n}, Writes v n → n ≤ 255 := by
    rintro v n ⟨_, _, _, _, _, _, _, h⟩; exact h
  induction h with
  | nil => exact ⟨fun n h => (by cases h), fun h => by cases h⟩
  | rest ps h =>
    constructor
    · intro n hn
      simp [saidContexts] at hn
    · intro h; simp at h
  | path p h0 h1 h ih => exact ⟨ih.1, fun h => ih.2 (by simpa using h)⟩
  | verbose h ih => exact ⟨ih.1, fun h => ih.2 (by simpa using h)⟩
  | reverse hr h ih => exact ⟨ih.1, fun _ => hr⟩
  | contextEq hc hv h ih | context hc hv hl h ih =>
    refine ⟨?_, fun h => ih.2 (by simpa using h)⟩
    intro m hm
    rcases List.mem_cons.1 hm with rfl | hm
    · exact ⟨hc, hw hv⟩
    · exact ih.1 m hm
  | letters h0 h' h ih =>
    refine ⟨?_, ?_⟩
    · rw [happ, (hl h').1]; exact ih.1
    · intro h
      rcases List.mem_append.1 h with h | h
      · exact (hl h').2 h
      · exact ih.2 h
  | lettersValue h' hc hv h ih | lettersEq h' hc hv h ih | lettersNext h' hc hv hn h ih =>
    refine ⟨?_, ?_⟩
    · rw [happ, (hl h').1]
      intro m hm
      rcases List.mem_cons.1 hm with rfl | hm
      · exact ⟨hc, hw hv⟩
      · exact ih.1 m hm
    · intro h
      rcases List.mem_append.1 h with h | h
      · exact (hl h').2 h
      · exact ih.2 (by simpa using h)

/-- What can be said on some command line: exactly this.  In particular every path that is not empty can be given, whatever its
bytes, and every number of context lines up to 255. -/
theorem C111_all (cli : Cli) (g : Given) :
    (∃ args, Accepted cli args g) ↔
      g.verbose ≤ 255 ∧ (∀ n, g.context = some n → cli.context = true ∧ n ≤ 255) ∧ (g.reverse = true → cli.reverse = true) ∧
      g.paths.length = cli.paths ∧ ∀ p ∈ g.paths, p ≠ [] := by
  constructor
  · rintro ⟨args, is, h, m⟩
    refine ⟨?_, ?_, ?_, ?_, ?_⟩
    · rw [m.verbose]; omega
    · intro n hn
      refine h.options.1 n ?_
      rw [← m.context, hn]
      simp
    · intro hr
      refine h.options.2 ?_
      have := m.reverse
      rw [hr] at this
      exact List.count_pos_iff.1 (by rw [this]; decide)
    · rw [m.paths]; exact m.enough
    · rw [m.paths]; exact h.paths_ne
  · rintro ⟨h1, h2, h3, h4, h5⟩
    have hp : saidPaths (g.paths.map .path) = g.paths := by
      unfold saidPaths
      rw [List.filterMap_map]
      exact List.filterMap_some
    have hc : saidContexts (g.paths.map .path) = [] := by simp [saidContexts]
    have hrest := Says.rest (cli := cli) g.paths h5
    have hrev : ∃ args is, Says cli args is ∧ saidPaths is = g.paths ∧ saidContexts is = [] ∧
        is.count .verbose = 0 ∧ is.count .reverse = if g.reverse then 1 else 0 := by
      have c1 : (g.paths.map Said.path).count .verbose = 0 := List.count_eq_zero.2 (by simp)
      have c2 : (g.paths.map Said.path).count .reverse = 0 := List.count_eq_zero.2 (by simp)
      cases hr : g.reverse with
      | false => exact ⟨_, _, hrest, hp, hc, c1, c2⟩
      | true => exact ⟨_, _, .reverse (h3 hr) hrest, hp, hc, by simp [c1], by simp [c2]⟩
    obtain ⟨a1, i1, k1, k2, k3, k4, k5⟩ := hrev
    have hctx : ∃ args is, Says cli args is ∧ saidPaths is = g.paths ∧ saidContexts is = g.context.toList ∧
        is.count .verbose = 0 ∧ is.count .reverse = if g.reverse then 1 else 0 := by
      cases hn : g.context with
      | none => exact ⟨a1, i1, k1, k2, k3, k4, k5⟩
      | some n =>
        obtain ⟨m1, m2⟩ := h2 n hn
        refine ⟨_, _, .contextEq m1 (threeDigits_writes m2) k1, k2, ?_, ?_, ?_⟩
        · show n :: saidContexts i1 = _
          rw [k3]; rfl
        · rw [List.count_cons_of_ne (by simp)]; exact k4
        · rw [List.count_cons_of_ne (by simp)]; exact k5
    obtain ⟨a2, i2, m1, m2, m3, m4, m5⟩ := hctx
    refine ⟨_, _, verbose_says m1 g.verbose, ?_, ?_, ?_, ?_, ?_⟩
    · rw [← m2]; symm
      show List.filterMap _ _ = _
      rw [List.filterMap_append]
      simp [saidPaths]
    · rw [← h4, ← m2]
      show (List.filterMap _ _).length = _
      rw [List.filterMap_append]
      simp [saidPaths]
    · rw [List.count_append, m4, List.count_replicate_self]; omega
    · rw [← m3]; symm
      show List.filterMap _ _ = _
      rw [List.filterMap_append]
      simp [saidContexts]
    · rw [List.count_append, m5, List.count_replicate]; simp

/-- The same for the two programs: `pw_diff` has two paths, a number of context lines and no `--reverse`, `pw_patch` one path and
no number of context lines. -/
theorem C111_programs (g : Given) :
    ((∃ args, Accepted Cli.diff args g) ↔
      g.verbose ≤ 255 ∧ (∀ n, g.context = some n → n ≤ 255) ∧ g.reverse = false ∧ (∃ before after, g.paths = [before, after] ∧
        before ≠ [] ∧ after ≠ [])) ∧
    ((∃ args, Accepted Cli.patch args g) ↔
      g.verbose ≤ 255 ∧ g.context = none ∧ ∃ patch, g.paths = [patch] ∧ patch ≠ []) := by
  obtain ⟨v, c, r, ps⟩ := g
  rw [C111_all, C111_all]
  simp only [Cli.diff, Cli.patch, true_and, Bool.false_eq_true, imp_false, implies_true, false_and]
  constructor
  · refine and_congr_right fun _ => and_congr_right fun _ => ?_
    rw [Bool.not_eq_true]
    refine and_congr_right fun _ => ?_
    match ps with
    | [] => simp
    | [a] => simp
    | [a, b] =>
      simp only [List.length_cons, List.length_nil, List.mem_cons, List.not_mem_nil, or_false, forall_eq_or_imp, forall_eq, true_and,
        Nat.zero_add, Nat.reduceAdd, List.cons.injEq, and_true]
      exact ⟨fun h => ⟨a, b, ⟨rfl, rfl⟩, h⟩, fun ⟨_, _, ⟨ha, hb⟩, h⟩ => ha ▸ hb ▸ h⟩
    | a :: b :: d :: ps => simp
  · refine and_congr_right fun _ => and_congr ?_ ?_
    · cases c <;> simp
    · match ps with
      | [] => simp
      | [a] => simp
      | a :: b :: ps => simp

/-- The order in which options and paths are given does not matter, except for the order of the paths. -/
theorem C111_order (cli : Cli) (args args' : List Arg) (is is' : List Said) (h : Says cli args is) (h' : Says cli args' is')
    (hp : is.Perm is') (hpaths : saidPaths is = saidPaths is') (g : Given) : Accepted cli args g ↔ Accepted cli args' g := by
  have main : ∀ {is is' : List Said}, is.Perm is' → saidPaths is = saidPaths is' → Means cli is g → Means cli is' g := by
    intro is is' hp hpaths m
    refine ⟨by rw [m.paths, hpaths], by rw [← hpaths]; exact m.enough, by rw [m.verbose, hp.count_eq], ?_, by rw [← hp.count_eq]; exact m.reverse⟩
    have k : (saidContexts is).Perm (saidContexts is') := hp.filterMap _
    rw [← m.context] at k
    cases hg : g.context with
    | none => rw [hg] at k; exact (List.nil_perm.1 k).symm
    | some n => rw [hg] at k; exact List.singleton_perm.1 k
  constructor
  · rintro ⟨js, k, m⟩
    rw [k.one h] at m
    exact ⟨is', h', main hp hpaths m⟩
  · rintro ⟨js, k, m⟩
    rw [k.one h'] at m
    exact ⟨is, h, main hp.symm hpaths.symm m⟩

/-- A path that looks like an option is taken for a path only after `--`. -/
theorem C111_dash (cli : Cli) (args : List Arg) (g : Given) (h : Accepted cli args g) (p : Path) (hp : p ∈ g.paths)
    (hl : LooksLikeOption p) : ∃ pre ps, args = pre ++ [45, 45] :: ps ∧ [45, 45] ∉ pre ∧ p ∈ ps := by
  obtain ⟨is, h, m⟩ := h
  rw [m.paths] at hp
  clear m
  have hlet : ∀ {ls js}, Letters cli ls js → saidPaths js = [] := by
    intro ls js h
    induction h with
    | nil => rfl
    | verbose h ih => exact ih
    | reverse hr h ih => exact ih
  have happ : ∀ is js, saidPaths (is ++ js) = saidPaths is ++ saidPaths js := fun is js => List.filterMap_append
  have next : ∀ {as : List Arg} (a : Arg), a ≠ [45, 45] → (∃ pre ps, as = pre ++ [45, 45] :: ps ∧ [45, 45] ∉ pre ∧ p ∈ ps) →
      ∃ pre ps, a :: as = pre ++ [45, 45] :: ps ∧ [45, 45] ∉ pre ∧ p ∈ ps := by
    rintro as a ha ⟨pre, ps, rfl, h1, h2⟩
    refine ⟨a :: pre, ps, rfl, ?_, h2⟩
    intro hk
    rcases List.mem_cons.1 hk with hk | hk
    · exact ha hk.symm
    · exact h1 hk
  have hne : ∀ {ls js}, Letters cli ls js → ls ≠ [] → 45 :: ls ≠ [45, 45] := by
    intro ls js h h0 e
    cases h with
    | nil => exact h0 rfl
    | verbose h => cases e
    | reverse hr h => cases e
  have hne' : ∀ {ls js rest}, Letters cli ls js → 45 :: (ls ++ 99 :: rest) ≠ [45, 45] := by
    intro ls js rest h e
    cases h with
    | nil => cases e
    | verbose h => cases e
    | reverse hr h => cases e
  have hnv : ∀ v, ¬ LooksLikeOption v → v ≠ [45, 45] := by
    rintro v h rfl; exact h ⟨_, _, rfl⟩
  induction h with
  | nil => cases hp
  | rest ps h =>
    refine ⟨[], ps, rfl, by simp, ?_⟩
    have : saidPaths (ps.map .path) = ps := by
      unfold saidPaths
      rw [List.filterMap_map]
      exact List.filterMap_some
    rw [this] at hp; exact hp
  | path q h0 h1 h ih =>
    rcases List.mem_cons.1 hp with rfl | hp
    · exact absurd hl h1
    · exact next q (hnv q h1) (ih hp)
  | verbose h ih => exact next _ (by decide +kernel) (ih hp)
  | reverse hr h ih => exact next _ (by decide +kernel) (ih hp)
  | contextEq hc hv h ih => exact next _ (by intro e; simp at e) (ih hp)
  | context hc hv hl' h ih => exact next _ (by decide +kernel) (next _ (hnv _ hl') (ih hp))
  | letters h0 h' h ih => rw [happ, hlet h'] at hp; exact next _ (hne h' h0) (ih hp)
  | lettersValue h' hc hv h ih => rw [happ, hlet h'] at hp; exact next _ (hne' h') (ih hp)
  | lettersEq h' hc hv h ih => rw [happ, hlet h'] at hp; exact next _ (hne' h') (ih hp)
  | lettersNext h' hc hv hn h ih => rw [happ, hlet h'] at hp; exact next _ (hne' h') (next _ (hnv _ hn) (ih hp))

/-- The bytes of an argument. -/
private def arg (s : String) : Arg := s.toList.map fun c => UInt8.ofNat c.toNat

-- `pw_diff -vvc=007 a -v b`
example : Cli.diff.parse false [arg "-vvc=007", arg "a", arg "-v", arg "b"] {} = .run ⟨3, some 7, false, [arg "a", arg "b"]⟩ := by
  decide +kernel

-- `pw_diff a --context 12 -- -b` and with the option first
example : Cli.diff.parse false [arg "a", arg "--context", arg "12", arg "--", arg "-b"] {} = .run ⟨0, some 12, false, [arg "a", arg "-b"]⟩ ∧
    Cli.diff.parse false [arg "--context", arg "12", arg "a", arg "--", arg "-b"] {} = .run ⟨0, some 12, false, [arg "a", arg "-b"]⟩ := by
  decide +kernel

-- refused: too large, given twice, no value, an unknown option, a path too few or too many, an empty path, an abbreviation
example : Cli.diff.parse false [arg "-c256", arg "a", arg "b"] {} = .error ∧
    Cli.diff.parse false [arg "-c2", arg "-c2", arg "a", arg "b"] {} = .error ∧
    Cli.diff.parse false [arg "-c", arg "-1", arg "a", arg "b"] {} = .error ∧
    Cli.diff.parse false [arg "-r", arg "a", arg "b"] {} = .error ∧
    Cli.diff.parse false [arg "a"] {} = .error ∧
    Cli.diff.parse false [arg "a", arg "b", arg "c"] {} = .error ∧
    Cli.diff.parse false [arg "a", arg ""] {} = .error ∧
    Cli.diff.parse false [arg "--verb", arg "a", arg "b"] {} = .error ∧
    Cli.patch.parse false [arg "-r", arg "--reverse", arg "a"] {} = .error := by
  decide +kernel

-- help, although paths are missing; not after `--` or after an error
example : Cli.patch.parse false [arg "-vrh"] {} = .help ∧ Cli.patch.parse false [arg "-v", arg "--help", arg "--what"] {} = .help ∧
    Cli.patch.parse false [arg "--", arg "--help"] {} = .run ⟨0, none, false, [arg "--help"]⟩ ∧
    Cli.patch.parse false [arg "--what", arg "--help"] {} = .error := by
  decide +kernel

/-! ## C112 -/

theorem printHelp_run (help : List UInt8) (w : World) :
    (((printHelp help).run w).1 = .exited 0 ∨ ((printHelp help).run w).1 = .killed) ∧ ((printHelp help).run w).2.fs = w.fs ∧
    ∃ out, out <+: help ∧ ((printHelp help).run w).2.stdout = w.stdout ++ out := by
  have hrun : (writeAll help).run = (.ok (), help) := by
    simp [writeAll, WM.run]
  have he : ∀ w, printHelp help w =
      match writeStdout (writeAll help) w with
      | (.ok _, w') => (.ok (), w')
      | (.error e, w') => (.error e, w') := by
    intro w
    show Sys.bind (writeStdout (writeAll help)) (fun _ => pure ()) w = _
    unfold Sys.bind
    rcases writeStdout (writeAll help) w with ⟨_ | _, w'⟩ <;> rfl
  unfold Sys.run
  rw [he]
  unfold writeStdout operation
  rw [hrun]
  rcases w with ⟨fs, faults, stdout⟩
  match faults with
  | [] => exact ⟨.inl rfl, rfl, help, List.prefix_refl _, rfl⟩
  | .none :: _ => exact ⟨.inl rfl, rfl, help, List.prefix_refl _, rfl⟩
  | .fail n :: _ => exact ⟨.inl rfl, rfl, help.take n, List.take_prefix _ _, rfl⟩
  | .kill n :: _ => exact ⟨.inr rfl, rfl, help.take n, List.take_prefix _ _, rfl⟩

/-- `pw_diff` with any command line whatsoever: if it is accepted, the program does what the earlier properties are about, with
two paths that are not empty and at most 255 lines of context, 2 if nothing else is said; if help is asked for, this is printed;
otherwise the exit status is 2, nothing at all has changed, and no message of the program is shown. -/
theorem C112_diff (p : Profile) (help : List UInt8) (args : List Arg) (w : World) :
    (∀ g, Accepted Cli.diff args g → ∃ before after, g.paths = [before, after] ∧ before ≠ [] ∧ after ≠ [] ∧ g.context.getD 2 ≤ 255 ∧
      (pwDiffMain p help args w).1 = ((pwDiff p before after (g.context.getD 2)).run w).1 ∧
      (pwDiffMain p help args w).2.1 = ((pwDiff p before after (g.context.getD 2)).run w).2 ∧
      (pwDiffMain p help args w).2.2 = ((pwDiffL p before after (g.context.getD 2)).run w).2.2.filter (shown .pwDiff g.verbose)) ∧
    (HelpAsked Cli.diff args → ((pwDiffMain p help args w).1 = .exited 0 ∨ (pwDiffMain p help args w).1 = .killed) ∧
      (∃ out, out <+: help ∧ (pwDiffMain p help args w).2.1.stdout = w.stdout ++ out) ∧ (pwDiffMain p help args w).2.2 = []) ∧
    ((∀ g, ¬ Accepted Cli.diff args g) → ¬ HelpAsked Cli.diff args → pwDiffMain p help args w = (.exited 2, w, [])) := by
  refine ⟨?_, ?_, ?_⟩
  · intro g h
    obtain ⟨-, h2, -, h4, h5⟩ := (C111_all Cli.diff g).1 ⟨args, h⟩
    match hg : g.paths with
    | [] => rw [hg] at h4; cases h4
    | [_] => rw [hg] at h4; cases h4
    | _ :: _ :: _ :: _ => rw [hg] at h4; simp [Cli.diff] at h4
    | [before, after] =>
      rw [hg] at h5
      refine ⟨before, after, rfl, h5 _ (by simp), h5 _ (by simp), ?_, ?_⟩
      · cases hc : g.context with
        | none => decide
        | some n => exact (h2 n hc).2
      · unfold pwDiffMain
        rw [(C111_language _ _ _).2 h]
        simp only [hg]
        obtain ⟨-, -, k1, k2⟩ := C93_same p [] [] before after (g.context.getD 2) false w
        exact ⟨k1, k2, trivial⟩
  · intro h
    unfold pwDiffMain
    rw [(C111_help _ _).2 h]
    obtain ⟨k1, -, k3⟩ := printHelp_run help w
    exact ⟨k1, k3, rfl⟩
  · intro h1 h2
    unfold pwDiffMain
    rw [(C111_refused _ _).2 ⟨h1, h2⟩]

/-- `pw_patch` with any command line whatsoever, in the same way. -/
theorem C112_patch (p : Profile) (help : List UInt8) (temp : Path) (args : List Arg) (w : World) :
    (∀ g, Accepted Cli.patch args g → ∃ patch, g.paths = [patch] ∧ patch ≠ [] ∧
      (pwPatchMain p help temp args w).1 = ((pwPatch p temp patch g.reverse).run w).1 ∧
      (pwPatchMain p help temp args w).2.1 = ((pwPatch p temp patch g.reverse).run w).2 ∧
      (pwPatchMain p help temp args w).2.2 = ((pwPatchL p temp patch g.reverse).run w).2.2.filter (shown .pwPatch g.verbose)) ∧
    (HelpAsked Cli.patch args → ((pwPatchMain p help temp args w).1 = .exited 0 ∨ (pwPatchMain p help temp args w).1 = .killed) ∧
      (pwPatchMain p help temp args w).2.1.fs = w.fs ∧
      (∃ out, out <+: help ∧ (pwPatchMain p help temp args w).2.1.stdout = w.stdout ++ out) ∧ (pwPatchMain p help temp args w).2.2 = []) ∧
    ((∀ g, ¬ Accepted Cli.patch args g) → ¬ HelpAsked Cli.patch args → pwPatchMain p help temp args w = (.exited 2, w, [])) := by
  refine ⟨?_, ?_, ?_⟩
  · intro g h
    obtain ⟨-, -, -, h4, h5⟩ := (C111_all Cli.patch g).1 ⟨args, h⟩
    match hg : g.paths with
    | [] => rw [hg] at h4; cases h4
    | _ :: _ :: _ => rw [hg] at h4; simp [Cli.patch] at h4
    | [patch] =>
      rw [hg] at h5
      refine ⟨patch, rfl, h5 _ (by simp), ?_⟩
      unfold pwPatchMain
      rw [(C111_language _ _ _).2 h]
      simp only [hg]
      obtain ⟨k1, k2, -, -⟩ := C93_same p temp patch [] [] 0 g.reverse w
      exact ⟨k1, k2, trivial⟩
  · intro h
    unfold pwPatchMain
    rw [(C111_help _ _).2 h]
    obtain ⟨k1, k2, k3⟩ := printHelp_run help w
    exact ⟨k1, k2, k3, rfl⟩
  · intro h1 h2
    unfold pwPatchMain
    rw [(C111_refused _ _).2 ⟨h1, h2⟩]

/-- What the exit status says, whatever the command line and whatever goes wrong.  `pw_diff`: 0, 1, 2 or 5; `pw_patch`: 0, 1, 2
or 101; and 2 exactly if the command line was refused. -/
theorem C112_status (p q : Profile) (help : List UInt8) (temp : Path) (args : List Arg) (w : World) (n : Nat) :
    ((pwDiffMain p help args w).1 = .exited n → n = 0 ∨ n = 1 ∨ n = 2 ∨ n = 5) ∧
    ((pwDiffMain p help args w).1 = .exited 2 ↔ (∀ g, ¬ Accepted Cli.diff args g) ∧ ¬ HelpAsked Cli.diff args) ∧
    ((pwPatchMain q help temp args w).1 = .exited n → n = 0 ∨ n = 1 ∨ n = 2 ∨ n = 101) ∧
    ((pwPatchMain q help temp args w).1 = .exited 2 ↔ (∀ g, ¬ Accepted Cli.patch args g) ∧ ¬ HelpAsked Cli.patch args) := by
  have hd : (∃ g, Accepted Cli.diff args g) ∨ HelpAsked Cli.diff args →
      (pwDiffMain p help args w).1 = .exited 0 ∨ (pwDiffMain p help args w).1 = .exited 1 ∨ (pwDiffMain p help args w).1 = .exited 5 ∨
        (pwDiffMain p help args w).1 = .killed := by
    rintro (⟨g, h⟩ | h)
    · obtain ⟨before, after, -, -, -, -, e, -⟩ := (C112_diff p help args w).1 g h
      rw [e]
      exact (C61_readOnly p before after _ w).2
    · rcases ((C112_diff p help args w).2.1 h).1 with e | e <;> rw [e] <;> simp
  have hp : (∃ g, Accepted Cli.patch args g) ∨ HelpAsked Cli.patch args → ∀ n,
      (pwPatchMain q help temp args w).1 = .exited n → n = 0 ∨ n = 1 ∨ n = 101 := by
    rintro (⟨g, h⟩ | h) n hn
    · obtain ⟨patch, -, -, e, -⟩ := (C112_patch q help temp args w).1 g h
      rw [e, ← (C93_same q temp patch [] [] 0 g.reverse w).1] at hn
      rcases (C93_reports q temp patch g.reverse w).2 n hn with k | ⟨k, -⟩ | ⟨k, -⟩
      · exact .inl k
      · exact .inr (.inl k)
      · exact .inr (.inr k)
    · rcases ((C112_patch q help temp args w).2.1 h).1 with e | e <;> rw [e] at hn <;> cases hn
      exact .inl rfl
  have no : ∀ cli, ¬ ((∀ g, ¬ Accepted cli args g) ∧ ¬ HelpAsked cli args) → (∃ g, Accepted cli args g) ∨ HelpAsked cli args := by
    intro cli h
    by_cases h1 : HelpAsked cli args
    · exact .inr h1
    · exact .inl (Classical.byContradiction fun h2 => h ⟨fun g hg => h2 ⟨g, hg⟩, h1⟩)
  refine ⟨?_, ?_, ?_, ?_⟩
  · intro h
    by_cases hr : (∀ g, ¬ Accepted Cli.diff args g) ∧ ¬ HelpAsked Cli.diff args
    · rw [(C112_diff p help args w).2.2 hr.1 hr.2] at h
      cases h; exact .inr (.inr (.inl rfl))
    · rcases hd (no _ hr) with e | e | e | e <;> rw [e] at h <;> cases h <;> simp
  · constructor
    · intro h
      refine Classical.byContradiction fun hr => ?_
      rcases hd (no _ hr) with e | e | e | e <;> rw [e] at h <;> cases h
    · rintro ⟨h1, h2⟩
      rw [(C112_diff p help args w).2.2 h1 h2]
  · intro h
    by_cases hr : (∀ g, ¬ Accepted Cli.patch args g) ∧ ¬ HelpAsked Cli.patch args
    · rw [(C112_patch q help temp args w).2.2 hr.1 hr.2] at h
      cases h; exact .inr (.inr (.inl rfl))
    · rcases hp (no _ hr) n h with e | e | e <;> simp [e]
  · constructor
    · intro h
      refine Classical.byContradiction fun hr => ?_
      rcases hp (no _ hr) 2 h with e | e | e <;> cases e
    · rintro ⟨h1, h2⟩
      rw [(C112_patch q help temp args w).2.2 h1 h2]

/-- Whatever the command line and whatever goes wrong: `pw_diff` changes no file, and it shows a message exactly if its exit
status is 1 or 5. -/
theorem C112_readOnly (p : Profile) (help : List UInt8) (args : List Arg) (w : World) :
    (pwDiffMain p help args w).2.1.fs = w.fs ∧
    ((pwDiffMain p help args w).2.2 ≠ [] ↔ (pwDiffMain p help args w).1 = .exited 1 ∨ (pwDiffMain p help args w).1 = .exited 5) := by
  unfold pwDiffMain
  cases Cli.diff.parse false args {} with
  | error => exact ⟨rfl, by simp⟩
  | help =>
    obtain ⟨k1, k2, -⟩ := printHelp_run help w
    refine ⟨k2, ?_⟩
    rcases k1 with e | e <;> simp [e]
  | run g =>
    simp only
    split
    · rename_i before after _
      have k1 := (C93_same p [] [] before after (g.context.getD 2) false w).2.2.2
      refine ⟨?_, ?_⟩
      · show ((pwDiffL p before after (g.context.getD 2)).run w).2.1.fs = _
        rw [k1]
        exact (C61_readOnly p before after _ w).1
      · have k2 := C93_diff p before after (g.context.getD 2) w g.verbose
        simp only at k2 ⊢
        rcases k2 with ⟨e1, e2⟩ | ⟨e1, e2⟩ | ⟨e1, e2⟩ | ⟨e1, e2⟩ <;> rw [e1, e2] <;> simp
    · exact ⟨rfl, by simp⟩

/-- With `-v` or without it, a program does the same; only what is shown differs. -/
theorem C112_verbose (p : Profile) (help : List UInt8) (temp : Path) (args args' : List Arg) (w : World) (g g' : Given)
    (h1 : g.context = g'.context) (h2 : g.reverse = g'.reverse) (h3 : g.paths = g'.paths) :
    (Accepted Cli.diff args g → Accepted Cli.diff args' g' →
      (pwDiffMain p help args w).1 = (pwDiffMain p help args' w).1 ∧ (pwDiffMain p help args w).2.1 = (pwDiffMain p help args' w).2.1) ∧
    (Accepted Cli.patch args g → Accepted Cli.patch args' g' →
      (pwPatchMain p help temp args w).1 = (pwPatchMain p help temp args' w).1 ∧
      (pwPatchMain p help temp args w).2.1 = (pwPatchMain p help temp args' w).2.1) := by
  constructor
  · intro h h'
    obtain ⟨b, a, e, -, -, -, k1, k2, -⟩ := (C112_diff p help args w).1 g h
    obtain ⟨b', a', e', -, -, -, k1', k2', -⟩ := (C112_diff p help args' w).1 g' h'
    rw [h3, e'] at e
    cases e
    rw [k1, k2, k1', k2', h1]
    exact ⟨rfl, rfl⟩
  · intro h h'
    obtain ⟨b, e, -, k1, k2, -⟩ := (C112_patch p help temp args w).1 g h
    obtain ⟨b', e', -, k1', k2', -⟩ := (C112_patch p help temp args' w).1 g' h'
    rw [h3, e'] at e
    cases e
    rw [k1, k2, k1', k2', h2]
    exact ⟨rfl, rfl⟩

/-- Three command lines one after the other, the output of the first redirected to a file: how each ends and the state after it. -/
def sessionMain (p q : Profile) (helpDiff helpPatch : List UInt8) (temp patch : Path) (args1 args2 args3 : List Arg) (w : World) :
    (Ended × World) × (Ended × World) × (Ended × World) :=
  let s1 := pwDiffMain p helpDiff args1 w
  let s2 := pwPatchMain q helpPatch temp args2 (s1.2.1.redirect patch)
  let s3 := pwPatchMain q helpPatch temp args3 s2.2.1
  ((s1.1, s1.2.1), (s2.1, s2.2.1), (s3.1, s3.2.1))

/-- However it is written on the command line, `pw_diff before after > patch; pw_patch patch; pw_patch --reverse patch` turns
the first text file into the second and back, if no single differing pair of lines stands between two equal pairs; this does not
depend on the number of context lines, nor on `-v`.  No other entry is changed.  (Without that
condition it is false, C49.) -/
theorem C112_session (p q : Profile) (helpDiff helpPatch : List UInt8) (temp patch before after : Path)
    (args1 args2 args3 : List Arg) (g1 g2 g3 : Given) (w : World) (s t : Str)
    (a1 : Accepted Cli.diff args1 g1) (a2 : Accepted Cli.patch args2 g2) (a3 : Accepted Cli.patch args3 g3)
    (p1 : g1.paths = [before, after]) (p2 : g2.paths = [patch]) (p3 : g3.paths = [patch])
    (r2 : g2.reverse = false) (r3 : g3.reverse = true)
    (hw : Fresh w patch temp) (hub : IsUtf8 before) (hua : IsUtf8 after)
    (hb : w.fs.contentAt before = some ⟨s.bytes, false⟩) (ha : w.fs.contentAt after = some ⟨t.bytes, false⟩)
    (hsb : (splitInclusive s).length ≤ maxLines) (hst : (splitInclusive t).length ≤ maxLines)
    (hi : NoIsland (splitInclusive s) (splitInclusive t)) :
    ∃ patchContent, sessionMain p q helpDiff helpPatch temp patch args1 args2 args3 w =
      ((.exited 0, { w with stdout := patchContent }),
       (.exited 0, { w with fs := (w.fs.set (w.fs.entry patch) (some (.file patchContent))).set (w.fs.entry before) (some (.file t.bytes)) }),
       (.exited 0, { w with fs := (w.fs.set (w.fs.entry patch) (some (.file patchContent))).set (w.fs.entry before) (some (.file s.bytes)) })) := by
  obtain ⟨b', a', e, -, -, hctx, k1, k2, -⟩ := (C112_diff p helpDiff args1 w).1 g1 a1
  rw [p1] at e
  cases e
  obtain ⟨c, hc⟩ := C49_text_partial p q temp patch before after _ w s t hw hctx hub hua hb ha hsb hst hi
  refine ⟨c, Eq.trans ?_ hc⟩
  have two : ∀ w, (pwPatchMain q helpPatch temp args2 w).1 = ((pwPatch q temp patch false).run w).1 ∧
      (pwPatchMain q helpPatch temp args2 w).2.1 = ((pwPatch q temp patch false).run w).2 := by
    intro w
    obtain ⟨x, e, -, m1, m2, -⟩ := (C112_patch q helpPatch temp args2 w).1 g2 a2
    rw [p2] at e; cases e
    rw [m1, m2, r2]; exact ⟨rfl, rfl⟩
  have three : ∀ w, (pwPatchMain q helpPatch temp args3 w).1 = ((pwPatch q temp patch true).run w).1 ∧
      (pwPatchMain q helpPatch temp args3 w).2.1 = ((pwPatch q temp patch true).run w).2 := by
    intro w
    obtain ⟨x, e, -, m1, m2, -⟩ := (C112_patch q helpPatch temp args3 w).1 g3 a3
    rw [p3] at e; cases e
    rw [m1, m2, r3]; exact ⟨rfl, rfl⟩
  unfold sessionMain session
  simp only
  rw [(three _).1, (three _).2, (two _).1, (two _).2, k1, k2]

/-- However `pw_diff` is called, and however it ends: what it writes is at most a fixed multiple of the sizes of the two files,
or a part of the help. -/
theorem C112_size (p : Profile) (help : List UInt8) (args : List Arg) (w : World) :
    ∃ out, (pwDiffMain p help args w).2.1.stdout = w.stdout ++ out ∧
      (out.length ≤ help.length ∨ ∃ g before after, Accepted Cli.diff args g ∧ g.paths = [before, after] ∧
        (w.fs.sizeAt before < 2 ^ 64 → w.fs.sizeAt after < 2 ^ 64 →
          out.length ≤ 314 * (w.fs.sizeAt before + w.fs.sizeAt after) + 6 * (before.length + after.length) + 120)) := by
  by_cases hh : HelpAsked Cli.diff args
  · obtain ⟨-, ⟨out, k1, k2⟩, -⟩ := (C112_diff p help args w).2.1 hh
    exact ⟨out, k2, .inl k1.length_le⟩
  · by_cases ha : ∃ g, Accepted Cli.diff args g
    · obtain ⟨g, h⟩ := ha
      obtain ⟨before, after, e, -, -, hctx, k1, k2, -⟩ := (C112_diff p help args w).1 g h
      rw [k2]
      obtain ⟨out, ho⟩ : ∃ out, ((pwDiff p before after (g.context.getD 2)).run w).2.stdout = w.stdout ++ out := by
        rcases pwDiff_stdout p before after (g.context.getD 2) w with h | ⟨d, w1, n, h1, h2⟩
        · exact ⟨[], by rw [h, List.append_nil]⟩
        · exact ⟨_, h2⟩
      refine ⟨out, ho, .inr ⟨g, before, after, h, e, ?_⟩⟩
      intro h1 h2
      obtain ⟨out', m1, m2⟩ := C109_pwDiff p before after _ w hctx h1 h2
      rw [ho] at m1
      rw [List.append_cancel_left m1]
      exact m2
    · rw [(C112_diff p help args w).2.2 (fun g hg => ha ⟨g, hg⟩) hh]
      exact ⟨[], (List.append_nil _).symm, .inl (Nat.zero_le _)⟩

-- a run of `pw_patch -r` in a directory without files; a refused command line; a request for help
example (p : Profile) (w : World) :
    pwPatchMain p [] [84] [arg "-r", arg "-x"] w = (.exited 2, w, []) := by
  refine (C112_patch p [] [84] _ w).2.2 ?_ ?_
  · intro g h
    exact absurd ((C111_language _ _ _).2 h) (by rw [show Cli.patch.parse false [arg "-r", arg "-x"] {} = .error by decide +kernel]; simp)
  · intro h
    exact absurd ((C111_help _ _).2 h) (by decide +kernel)

example (p : Profile) (w : World) (hw : w.faults = []) :
    pwDiffMain p (arg "Usage") [arg "-v", arg "-h"] w = (.exited 0, { w with stdout := w.stdout ++ arg "Usage" }, []) := by
  unfold pwDiffMain
  rw [show Cli.diff.parse false [arg "-v", arg "-h"] {} = .help by decide +kernel]
  rcases w with ⟨fs, faults, stdout⟩
  cases hw
  rfl

-- the three command lines of C112_session
example : Accepted Cli.diff [arg "-c", arg "3", arg "a", arg "b"] ⟨0, some 3, false, [arg "a", arg "b"]⟩ ∧
    Accepted Cli.patch [arg "p"] ⟨0, none, false, [arg "p"]⟩ ∧ Accepted Cli.patch [arg "p", arg "-vr"] ⟨1, none, true, [arg "p"]⟩ :=
  ⟨(C111_language _ _ _).1 (by decide +kernel), (C111_language _ _ _).1 (by decide +kernel), (C111_language _ _ _).1 (by decide +kernel)⟩

-- `pw_patch` does not take a number of context lines, `pw_diff` no `--reverse`
example : (¬ ∃ args, Accepted Cli.patch args ⟨0, some 3, false, [arg "p"]⟩) ∧
    (¬ ∃ args, Accepted Cli.diff args ⟨0, some 3, true, [arg "a", arg "b"]⟩) ∧
    ∃ args, Accepted Cli.diff args ⟨2, some 3, false, [arg "a", arg "b"]⟩ :=
  ⟨fun h => absurd ((C111_programs _).2.1 h).2.1 (by decide), fun h => absurd ((C111_programs _).1.1 h).2.2.1 (by decide),
    (C111_programs _).1.2 ⟨by decide, fun n h => by cases h; decide, rfl, arg "a", arg "b", rfl, by decide, by decide⟩⟩

end PwDiff
