# Formal model of pwil3058/rs_diff_patch in Lean 4 — design

## 1. Trusted base

* Lean 4.33.0's kernel (every theorem is checked by it; `vcheck` replays all modules).
* Axioms: at most `propext`, `Classical.choice`, `Quot.sound` (Lean's own). No axioms of ours, no `sorry`,
  no `native_decide`/`bv_decide`.
* The reading of the Rust source: nothing ties the model to the code mechanically. Every definition in
  `lean/Verif/Model/*` cites the file and lines it models; the repository's own unit/doc tests are re-run on the
  model (`lean/Verif/Tests.lean`) as a check of the reading — those are tests, not proofs.
* Assumptions on the environment: 64-bit `usize`/`isize`; Rust std behaves as documented (`write_all` writes a prefix
  then fails or writes everything; `read_line` splits after `\n` and validates UTF-8; slice indexing panics out of
  range; overflow panics in the debug profile and wraps in release; `rename` is atomic); `HashMap` is a map;
  rayon's `par_sort` returns an ordered permutation; serde derives map structs/enums to JSON in the documented way.

## 2. Modelling conventions

* `usize` is `Nat`, `isize` is `Int`; arithmetic that can overflow on attacker-chosen values is written with the
  checked operations of `Model/Basic.lean`, which panic (debug profile) or wrap modulo 2^64 (release profile).
  Additions of two in-bounds indices of a sequence are plain `Nat` additions (a Rust slice has < 2^63 elements).
* `Result`/panic: `Outcome α = ok | ioErr | panic | diverge`; `diverge` is only produced when the fuel of a modelled
  loop runs out. Theorems show that this does not happen for inputs of reasonable size (diffing: C11; patching with
  well-formed clumps: C57, C60, C86), and that patching ends for every patch and file: C125 (the fuel of the search,
  2^64 + 1, is more than the number of positions of the type).
* `W: io::Write` is a `Writer`: bytes written so far and an optional remaining capacity after which `write_all` fails
  having written what fits. This covers every writer whose first failure occurs at an arbitrary byte.
* `String` is `List Char` (Lean's `Char` = Unicode scalar value = Rust `char`), its bytes are its UTF-8 encoding;
  a sequence item has a type `T` with a byte encoding (`Item T`): `Str` for text, `UInt8` for bytes.
* `&mut` parameters become returned values; iterators become lists; loops become structural recursion or fuel loops.

## 3. Files

| Lean | Rust |
|---|---|
| `Model/Basic` | profiles, outcomes, checked arithmetic, writer |
| `Model/Range` | range.rs, common_subsequence.rs, snippet.rs |
| `Model/Sequence` | sequence.rs |
| `Model/Changes` | changes.rs |
| `Model/ApplyText` | apply_text.rs, the clump part of text_diff.rs |
| `Model/ApplyBytes` | apply_bytes.rs, the clump part of byte_diff.rs |
| `Model/Json` | the JSON writer and reader of serde_json (pretty printer, parser) |
| `Model/Diff` | diff.rs, the diff types of text_diff.rs and byte_diff.rs, what their serde derives mean |
| `Model/Programs` | pw_diff/src/main.rs, pw_patch/src/main.rs, `Diff::new`, on a file system with faults |
| `Model/Shared` | the two programs as series of operations, several processes taking turns on one file system |
| `Model/Regex` | the part of the regex crate's syntax that the patterns use, with its leftmost-first (backtracking) semantics |
| `Model/Unified` | pw_cub_diff_lib: lib.rs, text_diff.rs, unified_diff.rs |
| `Model/Data` | data.rs (commented out of lib.rs, dead code): the parts that differ from sequence.rs |
| `Model/Cost` | changes.rs:140-233 once more, with a count of steps |
| `Model/Logging` | the log messages of apply_text.rs, apply_bytes.rs and the two programs |
| `Model/Inodes` | pw_patch/src/main.rs once more, on a file system with hard links and permissions |
| `Model/CommandLine` | pw_diff/src/main.rs:12-28, pw_patch/src/main.rs:16-23 (the `Cli` structs) and clap's parsing of them |
| `Spec`, `SpecPatching`, `SpecBytes`, `SpecUnified`, `SpecJson` | specifications used to state the properties |
| `Proofs/*` | lemmas |
| `Props/*` | the property theorems C01… and their non-vacuity examples |

Not modelled: `Debug`/`Display` of errors, the wording of log messages, memory exhaustion.

The file-system model (`Model/Programs`): a path names an entry (several paths may name the same), an entry is absent, a
file, a directory or a symbolic link. Every operation of a program consumes one element of a fault schedule: it succeeds,
fails after transferring `n` bytes, or the process is killed after `n` bytes; theorems quantify over all schedules. The
process is alone (except in `Model/Shared`, where the programs are written again as series of operations, proved to be the
same programs when alone, and several processes take turns after each operation; opening with reading, and writing, are one
operation there); a kill does not lose data already written (no power failures). Standard output is line-buffered and the
error of the final flush is ignored, as in Rust's runtime.

`Model/Inodes` refines this: entries refer to files (inodes), which may have several names and have permissions; `rename` does
nothing if both names refer to the same file (POSIX). Which permissions new files get is left open. Only C117–C119 depend on it,
and C117 shows that for contents it makes no difference.

Log messages (`Model/Logging`): the functions that log are written a second time with their messages, and proved to be the
functions of the other files when the messages are left out. Trusted about `stderrlog`: with `.module(module_path!())` it
shows only the messages of the program's own crate, and verbosity 0, 1, 2 show errors, also warnings, also information.
Only `Model/Logging` and C93–C95 depend on this.

Command lines (`Model/CommandLine`): a parser for the two `Cli` structs that follows clap 4.5's documented behaviour with
default settings (what an option looks like, counting, no option twice, `--`, `u8` from 0 to 255, exit status 0 for help and 2
for errors). clap itself is trusted to behave like this; its messages are left out. Only C111 and C112 depend on this.

Regular expressions (`Model/Regex`): the patterns of `pw_cub_diff_lib` are anchored; they are modelled as syntax trees with
the backtracking semantics that the regex crate documents for its leftmost-first matching (first alternative first, greedy
repetition first). `\s` is the Unicode property White_Space (written out). `\d` (Unicode Nd) is a parameter `Digits`
of which only is used that it agrees with 0-9 on ASCII and contains no white space; theorems hold for every such set.
`usize::from_str` accepts ASCII digits only, so `\d` matches more than can be parsed: the theorems cover this.

Properties that are false of the code are refuted on a concrete input (theorems `C.._refuted`), and what does hold is in the
theorems `C.._partial`, whose comment says what is missing. They are C10, C14, C16, C23–C25, C34–C36, C38–C41, C47–C49, C51–C54, C62, C63,
C65, C68, C75, C79, C82, C84, C87, C91–C93, C97, C98, C100, C102, C104, C106, C108, C110, C118, C119, C122, C123.

## 4. Plan per property

* C01–C03 model `read`/`From`; induction on the byte/char list; UTF-8 via core's `List.utf8Encode` facts.
* C04 model both tables as maps built by the loop; loop invariant.
* C05–C07 direct; C07 is an induction over call histories.
* C08–C10 model the dynamic-programming loop; invariant: the map holds, for each j, the length of the longest common
  run ending at (j,i). C10 is false: prove a counterexample, and the exact shape of the block (a true run, then at most one
  wrong pair, then a true run).
* C11 the work list loop with fuel; a measure shows the fuel suffices.
* C12–C14 invariants through work list, sort, merge and generate. C14 false: counterexample + partial theorem under
  an explicit condition on the inputs.
* C15–C17 from C08–C14 (C16 false: counterexample; exactly when a diff is empty is read off C70, since blocks that cover the whole
  diagonal begin at the corner of their region, and all but the first have a run of one line).
* C18 uniqueness of ordered permutations.
* C19–C22 induction over the change list and the iterator state. C23 false: counterexample + partial.
* C24–C26 refinement of apply_into to "copy gap, write new snippet"; C24/C25 false: counterexample, exact
  characterisation, partial theorem.
* C27–C32 direct/inductive on the model functions, for arbitrary (also hand-made) patches.
* C33 direct from C20/C22. C34 false: counterexample + partial. C35 false: counterexample, general panic theorem, partial.
* C36–C38 inductions over the clump list; C37 via a general simulation theorem on the writer.
* C39 false: counterexamples + theorem giving conditions for absence of panics.
* C40–C42 as for text. C43–C44 case analysis. C45 JSON value level. C46–C49 a file-system model with fault/crash schedule.
* C50–C55, C63–C68 the hunk parser and generator, and the header patterns under a general theorem on the matcher (sound and
  complete for the language of a pattern). C63 describes `get_from_at` completely by an inductive relation.
* C69–C73 the search and the change list characterised up to uniqueness (`IsBlock`, `Decomp`), and from that the exact result
  on families of inputs, among them the inputs on which an edit is lost.
* C74 reading is stable under appending text (`read_append`), so no proper initial part of an object is a document; UTF-8
  is a prefix code. `readValue_fuel`: the fuel of the JSON reader does not matter. C75 a postcondition calculus (`Gives`).
  What `pw_diff` leaves when it fails on a path that is not UTF-8 is an initial part of a diff with other paths (`Stops`).
* C76–C78 the clumps of a diff are also a diff between the source and what they make of it (`IsDiff.retarget`), so the
  theorems on swapped diffs apply; `isLines_patched` shows that the patched text has the expected lines when read again.
* C79 `Spliced` describes results in which nothing is lost; induction over `Patching` with the invariant that the expected
  place of the next clump is not before the lines already dealt with. The invariant is broken by clumps that count as already
  applied, because the offset is not corrected for the lines they have added: counterexample with a generated patch.
* C82 `Recognising` is the relation followed by `is_already_applied`; it is deterministic, so the function is characterised.
* C83 a patch whose old lines stand in another file is also a diff between that file and the result (`Diffed.transplant`),
  so everything known about diffs applies. C84 as C79.
* C85 from `read_append`: an object is read the same whatever follows.
* C86 `Does` is a table of all the outcomes without faults; each row is shown to be what the program does, and the rows to
  cover everything (`Does.covers`; needs that `apply_into` does not fail by itself: `Proofs/NoErr`). C87 as C46.
* C80, C81 from C70, C71, C73 and the theorems about the programs.
* C88 `SpecJson` is the grammar of RFC 8259 and, for diffs, what serde's derives accept; soundness of the reader by induction
  on its fuel, completeness by induction on derivations. C89 from the same lemmas.
* C90 unfolding. C91 the loop of the nearby search with any fuel: the fuel at which it stops giving `diverge` is the number of
  rounds. C92 from the lemmas of C38 and C83: old lines that stand in the first `m` lines, or after them, do so whatever the
  other lines are.
* C93 a postcondition calculus with a log (`LS.Sat`), following C46 and C47. C94 induction over the loop with rules for what
  is added to the log (`LW.Logs`). C95 with the invariant of C79 for the offset.
* C96 unfolding. `words_unsigned` and `words_signed` (in the same file) check the arithmetic of the model against its meaning.
* C97 the positions written by a patch are those of its changes (`Tiles.place`); a kept pair inside a clump is written from
  `after`, outside from `before` (`leftOut_iff_gap`). C98 a relation between the two builds ("panics, or does the same")
  that every construct of the model preserves (`Proofs/Profiles`). C99 two stretches with a change in common are equal.
* C100 a calculus for what a computation can write at all (`Proofs/Written`). C101 from the characterisation of the change list
  (C70), and for patching a simulation between two runs whose items correspond (`Proofs/Relabel`); the same simulation with
  the identity relates hunks to clumps (C102).
* C103, C104 an invariant over all processes (`Proofs/Together`): how far each has come, what its temporary file holds, and
  which patches have made what is in each file; one lemma for a turn of any process.
* C105, C106 a calculus for the number of bytes a computation may still write (`Proofs/Size`); the least size of a text of a
  JSON value (`Proofs/JsonSize`), from the grammar of C88.
* C107, C108 a rule for a process each of whose operations may find another file system (`Proofs/Readers`); processes that only
  read can be left out; with the invariant of C103.
* C109 the exact size of a pretty-printed document; the sides from C20 and C22, the number of clumps from C19 and C13.
* C110 the characterisation of the change list (C70) is symmetric but for the order in which ties are decided; grouping
  commutes with exchanging.
* C111 the grammar (`SpecCommandLine`) against the parser: the parser from any state on, by strong induction on the number of
  arguments. C112 from C61, C93, C49 and C109.
* C113 an invariant (`Placed`) with the run that has created or removed each file, kept by every turn (`Placed.turn`).
* C114 each step makes a diff that leads forth and back in any state of the other files (`diff_leads`); induction on the steps.
* C115 the counting search is the search with a count beside it (`lcsesLoopC_eq`); number of rounds by the measure of the work
  list on both sides; the slow family by the characterisation of the block taken (`IsBlock`).
* C116 the first block taken is at least as long as every common run; merging keeps blocks whole. Sharpness by C70 on a family.
* C117–C119 a simulation (`Sim`): each operation on the disk does on the flattened disk what the operation of `Model/Programs`
  does, and what it may change is tracked besides (`Only`). Contents then come from C46 and C87.
* C120 the bound from C97, sharpness by C70 on a family (every second line differs: each block is one line, one differing pair).
* C121 one clump that replaces everything, through `C57_refines` and `C60_refines`; impossibility by C100 (text) and C40 (an empty file).
* C122 the lines of the result after one failure are known; the old lines stand at position 1, which the search reaches from wherever it begins.
* C123 from C46 and C47 by cases on the diff; refuted by C121 for the path `../x`.
* C124 by induction on the history, on every writer.
* C125 the positions the search looks at go round the machine words once, so both ends are met within 2^64 steps, also where
  the additions wrap; then a postcondition calculus over the programs. `C125_long` by induction on the fuel.
* C126 from C36 and C60: fuzz always leaves a line of a side that has lines, and that line would have to be in the file.
* C127: the first line a round changes is right afterwards (`first_right`): the first change is at the same position in both files
  if these have equally many lines; if nothing changed behind it, the block after it would have been found earlier (the choice of the
  first of the longest common runs).  So the right lines, read as digits, are a number that grows (`score`).  `C127_rounds` by a
  family of files of which a round finds only the last wrong line (`wrongOdd`).  `C127_files` for bytes with the same `first_right`;
  a file that becomes text on the way stays text.
* C128: the description of the blocks (`Decomp`) depends only on the equal pairs in the region, so it can be moved (`Decomp.move`); the
  passage is the first block; neither neighbour of it is a block, because the passage could then be longer.
* C129: no clump but the last one reaches the end of a file (`C20_inner`), so every intermediate text splits into the lines
  expected (`isLines_later`); later clumps leave the lines before them where they are (`StandInOrder.second_first`).
* C130: a block with a wrong pair in it is at least two items longer than the longest common run of its region, so there is no room for
  one (`Decomp.true_of_run`); the lines of a text with something added (`lines_append`, `lines_prepend`).
* C131: the lines of the converted text are the converted lines (`lines_withCr`); then C17, C72 and C49.
* C132: where no item of `before` repeats, the equal pairs are the graph of a function (`hit_of_index`), so that there are no islands
  after a move or a copy; which passage is kept, by induction on the blocks (`move_covered`).
* C133: the pairs left out with more context are left out with less (`LeftOut.mono`), so the clumps with less context lie in those
  with more (`wider_old`, `wider_new`); the result item by item in `transplanted`.
* C134: a sublist is an increasing map of indices (`sublist_index`), so equal pairs are in order and have no island between them
  (`deleted_hits`), and C71 applies; among equal lines the decomposition is given explicitly and C97 says what the patch does.
* C135: `taken` reads the lines once from left to right; that the recursive choice of blocks comes to the same is `taken_block`
  (the block chosen first splits the list into three parts that do not influence each other) and `taken_decomp`.
* C136: the same for files with lines inserted and deleted too. `Column` is only a way to write two files side by side; the
  theorems are about `olds C` and `news C`. `Faithful` says that the common lines are unique and in order.
* C137: generalises C38 from one displacement to one for every clump. The file is written as gaps and clumps in turn (`woven`), so
  the result can be read off; `WithinSearch` is the condition that comes from the limit of the search.
* C138: the already applied branch for the same files as in C137. The offset is kept by that branch too, so the limits are those of
  C137 with the new lines in place of the old ones.
* C139: C137 and C138 at once. A `Stretch` says which side of its clump is in the file; the limit of the search for a clump uses the
  same side of the next one, whichever of them is there.
* C140: the output of a run in which all clumps fail is itself a file in the sense of C137 (`blocks`), so C137 says what the second
  run does.
* C141: C137 with clumps that are not in the file (`none` in place of the gap). The result (`withConflicts`) shows where the conflicts
  are written.
* C142: C141 followed by C139; `rerun` reads the result of the first run as a file to which a part of the patch was applied.
* C143: C141 followed by C137 in reverse; `newLines` reads the result of the first run as a file in which all new lines are.
* C144: C139 for the exchanged clumps (`Stretch.swap`); all conditions but that of debug builds are the same in both directions.
* C145: for each of the patches the clumps of the other one belong to the lines between its own (`forPatch`), so C137 says what each of
  the four runs does.
* C146: the same with C137 in reverse.
* C147: the clumps of both patches, in the order in which they stand in the common file, are parts as in C145 (`interleave`).
* C148: C141 for the clumps turned round.
* C149: the parts of C147 with C146; how often a line is in the merged file follows from how often it is in the three others
  (`count_withPatches`).
* C150: the limits of the search leave as much room after the new lines as after the old ones (`within_both`), so the conditions of
  C137 for both directions are the same.
* C151: the parts of the file are numbered by the patch they belong to (`Numbered`); for one of the patches what the others replace is
  like any other lines between its clumps (`forNumber`), so C137 holds at each step.
* C152: a patch that is taken back is seen in the file without it, as in C151, and `within_both` of C150 carries the limits of the search
  over.
* C153: for a patch with one clump with context the limit of the search is no condition, and a line that is nowhere else identifies the
  clump whatever is applied, so the condition of C152 holds of all sequences of runs (`Separate.located`).
* C154: byte by byte (`ReplacedWhereFound`), from the relation of C60; whether a clump is found depends only on the bytes at its place
  (`foundIn_congr`).
* C155: from the description of the result byte by byte in C154.
* C156: by induction on the permutation, with C154 for two neighbours.
* C157: generated clumps are `Diffed`, in which equal lengths give equal places.
* C158: taken back in the opposite order by C154 (`bytePatches_undone`), and in any other by C156 for the clumps turned round.
* C159: whether a clump is found depends only on the bytes at its place (`foundIn_congr`), and C154.

## 5. Seeded wrong programs

`seeded/mutations.py` lists edits of the model with, for each, an instance ("probe") at which a property theorem would be
false after the edit. `seeded/run.py` rebuilds the project with the edit (scratch copy A; the list of theorems that fail in
`LOG.jsonl` is from this build, in which nothing is left out) and checks the probe in a second copy B, in which all proofs
outside of `Model` are replaced by `sorry`: the probe derives `False` from the property theorem, which shows that the theorem
as stated is false after the edit, and not only that its proof breaks. The scratch copies are not part of the project.
An edit that is in `LOG.jsonl` more than once was tried more than once; the last line is the state of `mutations.py`. In an
earlier line, a theorem under `not_refuted` is one for which the probe, as it was then, did not go through. No edit was tried
for C152 to C159.
