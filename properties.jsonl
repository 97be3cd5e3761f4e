{"id": "C01", "title": "Splitting a text into lines loses nothing", "statement": "Reading a text with Seq::<String>::read (or Seq::from on a string) and writing all its items back produces exactly the bytes that were read.", "quantifier": "every valid UTF-8 byte string / every text", "why_tests_cant": "the set of texts is infinite; missing final newline, empty lines and embedded CR all have to be covered", "anchors": ["pw_diff_lib/src/sequence.rs Seq<String>::read", "pw_diff_lib/src/sequence.rs From<String>", "pw_diff_lib/src/sequence.rs WriteDataInto for Seq<String>"]}
{"id": "C02", "title": "Shape of the lines", "statement": "Every item of a text Seq is non-empty, contains a newline only as its last character, and every item except possibly the last ends with a newline; read and From<&str> give the same items.", "quantifier": "every text", "why_tests_cant": "needs every placement of newlines", "anchors": ["pw_diff_lib/src/sequence.rs Seq<String>::read", "pw_diff_lib/src/sequence.rs From<String>"]}
{"id": "C03", "title": "Text reading accepts exactly valid UTF-8", "statement": "Seq::<String>::read succeeds if and only if the whole input is valid UTF-8 (although it validates line by line); Seq::<u8>::read always succeeds with the input bytes.", "quantifier": "every byte string", "why_tests_cant": "line-wise validation could disagree with whole-file validation on some byte string; no finite sample excludes it", "anchors": ["pw_diff_lib/src/sequence.rs Seq<String>::read", "pw_diff_lib/src/sequence.rs Seq<u8>::read"]}
{"id": "C04", "title": "Content indices are exact", "statement": "indices(item) on the table generated from a sequence returns the strictly increasing list of exactly those positions that hold item, and None exactly when item does not occur; the string and byte tables obey the same contract.", "quantifier": "every sequence and every item", "why_tests_cant": "must hold for all sequences, incl. arbitrary repetition patterns", "anchors": ["pw_diff_lib/src/sequence.rs StringItemIndices", "pw_diff_lib/src/sequence.rs ByteItemIndices"]}
{"id": "C05", "title": "has_subsequence_at is exact", "statement": "has_subsequence_at(sub, at) never panics and is true iff at < len and the items at positions at..at+sub.len() exist and equal sub.", "quantifier": "every sequence, subsequence and position", "why_tests_cant": "boundary positions for all sizes", "anchors": ["pw_diff_lib/src/sequence.rs Seq::has_subsequence_at"]}
{"id": "C06", "title": "Range writing is exact", "statement": "write_into(range) writes exactly the bytes of items range.start..range.end in order when the range is valid for the sequence, and otherwise panics without writing; write_into_all_from likewise for from..len.", "quantifier": "every sequence and range, debug and release profile", "why_tests_cant": "all ranges including inverted and out-of-bounds ones", "anchors": ["pw_diff_lib/src/sequence.rs WriteDataInto for Seq<u8>", "pw_diff_lib/src/sequence.rs WriteDataInto for Seq<String>"]}
{"id": "C07", "title": "A consumable sequence emits its input once, in order", "statement": "Any sequence of write_into_upto calls with in-range targets (increasing or not) followed by write_remainder writes exactly the whole input, each item once and in order; skipping with advance_consumed_by omits exactly the skipped items.", "quantifier": "every sequence and every history of calls", "why_tests_cant": "quantifies over all call histories", "anchors": ["pw_diff_lib/src/sequence.rs ConsumableSeq"]}
{"id": "C08", "title": "Longest-run search: totality and location", "statement": "For ranges that lie inside the two sequences longest_common_subsequence never panics; if it returns a block, the block is non-empty and lies inside both ranges; it returns None iff the two ranges have no item in common.", "quantifier": "every pair of sequences and every pair of valid sub-ranges", "why_tests_cant": "all inputs, repetition patterns and ranges", "anchors": ["pw_diff_lib/src/changes.rs ChangesGenerator::longest_common_subsequence"]}
{"id": "C09", "title": "Longest-run search: maximality", "statement": "The block returned by longest_common_subsequence is at least as long as every run of items that is common to both ranges.", "quantifier": "every pair of sequences, ranges and every common run in them", "why_tests_cant": "maximality is a statement about all competing runs", "anchors": ["pw_diff_lib/src/changes.rs ChangesGenerator::longest_common_subsequence"]}
{"id": "C10", "title": "Longest-run search: the reported block is really common", "statement": "The block (b,a,n) returned by longest_common_subsequence satisfies before[b+t] = after[a+t] for every t < n.", "quantifier": "every pair of sequences and ranges", "why_tests_cant": "a universally quantified content claim; (found FALSE: the forward extension skips one item)", "anchors": ["pw_diff_lib/src/changes.rs ChangesGenerator::longest_common_subsequence lines 193-206"]}
{"id": "C11", "title": "Diffing always terminates without panicking", "statement": "Changes::new terminates and never panics for any two sequences; in particular the work list of ranges always empties.", "quantifier": "every pair of sequences", "why_tests_cant": "termination and panic freedom over all inputs", "anchors": ["pw_diff_lib/src/changes.rs longest_common_subsequences", "pw_diff_lib/src/changes.rs generate"]}
{"id": "C12", "title": "The change list tiles both files", "statement": "The changes produced by Changes::new, in order, cover both sequences completely from (0,0) to (len,len) with no gap and no overlap.", "quantifier": "every pair of sequences", "why_tests_cant": "all inputs", "anchors": ["pw_diff_lib/src/changes.rs generate"]}
{"id": "C13", "title": "The change list is in normal form", "statement": "Every change is non-empty on the side(s) it affects, no two unchanged blocks are adjacent, and no two real changes are adjacent.", "quantifier": "every pair of sequences", "why_tests_cant": "all inputs", "anchors": ["pw_diff_lib/src/changes.rs generate", "pw_diff_lib/src/changes.rs longest_common_subsequences"]}
{"id": "C14", "title": "Unchanged blocks are unchanged", "statement": "For every NoChange block in the change list the items of the block are equal in both sequences; hence replaying the change list on the first sequence gives the second.", "quantifier": "every pair of sequences", "why_tests_cant": "a content claim over all inputs (found FALSE, holds whenever no isolated one-item substitution pattern occurs)", "anchors": ["pw_diff_lib/src/changes.rs Changes::new"]}
{"id": "C15", "title": "Identical inputs give an empty diff", "statement": "Diffing a sequence against itself gives at most one NoChange covering everything and no clumps, for every context.", "quantifier": "every sequence and context", "why_tests_cant": "all sequences incl. repetitive ones", "anchors": ["pw_diff_lib/src/changes.rs Changes::new", "pw_diff_lib/src/changes.rs change_clumps"]}
{"id": "C16", "title": "An empty diff means identical inputs", "statement": "If a diff has no clumps then the two inputs are identical.", "quantifier": "every pair of sequences and context", "why_tests_cant": "all inputs (found FALSE)", "anchors": ["pw_diff_lib/src/changes.rs Changes::new", "pw_diff_lib/src/changes.rs change_clumps"]}
{"id": "C17", "title": "Files with nothing in common become one change", "statement": "If the two sequences share no item the change list is empty (both empty) or exactly one Insert, Delete or Replace covering everything.", "quantifier": "every pair of sequences without a common item", "why_tests_cant": "all inputs of the class", "anchors": ["pw_diff_lib/src/changes.rs generate"]}
{"id": "C18", "title": "The result does not depend on the parallel sort schedule", "statement": "Whatever ordered permutation of the found blocks the parallel sort returns, the generated change list is the same.", "quantifier": "every pair of sequences and every outcome of a correct parallel sort", "why_tests_cant": "all schedules of the parallel sort", "anchors": ["pw_diff_lib/src/changes.rs longest_common_subsequences (par_sort)"]}
{"id": "C19", "title": "Clumps carry every real change exactly once", "statement": "For every context the concatenation of the non-NoChange changes of the clumps equals the list of non-NoChange changes of the whole change list, and every clump contains at least one of them.", "quantifier": "every pair of sequences and every context 0..255", "why_tests_cant": "all inputs and contexts", "anchors": ["pw_diff_lib/src/changes.rs ChangeClumpIter"]}
{"id": "C20", "title": "Clumps are ordered, disjoint and synchronised", "statement": "For every context the clump ranges lie inside the files, are in increasing order without overlap, start <= end, and the text between consecutive clumps (and before the first and after the last) has the same length in both files.", "quantifier": "every pair of sequences and every context", "why_tests_cant": "all inputs and contexts", "anchors": ["pw_diff_lib/src/changes.rs ChangeClumpIter", "pw_diff_lib/src/changes.rs ChangeClump::ranges"]}
{"id": "C21", "title": "Context lengths", "statement": "The leading and trailing context recorded for a clump never exceed the requested context, so the conversion to u8 is lossless, and the clump is at least as long as both contexts together on both sides.", "quantifier": "every pair of sequences and every context", "why_tests_cant": "all inputs and contexts, incl. context 0 and 255", "anchors": ["pw_diff_lib/src/changes.rs ChangeClump::context_lengths", "pw_diff_lib/src/common_subsequence.rs split/starts_trimmed/ends_trimmed"]}
{"id": "C22", "title": "Turning clumps into patch clumps is total and exact", "statement": "Converting a clump of a diff to a TextChangeClump / ByteChangeClump never panics and stores exactly the slices of the two files at the clump's ranges.", "quantifier": "every pair of sequences, every context, every clump", "why_tests_cant": "all inputs", "anchors": ["pw_diff_lib/src/text_diff.rs From<ChangeClump> for TextChangeClump", "pw_diff_lib/src/byte_diff.rs From<ChangeClump> for ByteChangeClump", "pw_diff_lib/src/sequence.rs extract_snippet"]}
{"id": "C23", "title": "before_range of a clump is the clump's range", "statement": "For a clump, before_start/before_end/before_range (trait ChangeBasics) agree with ranges().", "quantifier": "every clump of every diff", "why_tests_cant": "all clumps (found FALSE: before_end looks at the first change)", "anchors": ["pw_diff_lib/src/changes.rs ChangeBasics for ChangeClump"]}
{"id": "C24", "title": "Text diff then patch reproduces the second file", "statement": "Applying the text diff of (before, after) to before writes exactly after.", "quantifier": "every pair of texts and every context", "why_tests_cant": "the central round-trip over all inputs (found FALSE; exact characterisation and partial theorem proved)", "anchors": ["pw_diff_lib/src/text_diff.rs TextChangeDiff::new", "pw_diff_lib/src/apply_text.rs ApplyClumpsFuzzy::apply_into"]}
{"id": "C25", "title": "Reverse patching reproduces the first file", "statement": "Applying the text diff of (before, after) in reverse to after writes exactly before.", "quantifier": "every pair of texts and every context", "why_tests_cant": "round-trip over all inputs (found FALSE; partial)", "anchors": ["pw_diff_lib/src/apply_text.rs ApplyClumpsFuzzy::apply_into reverse"]}
{"id": "C26", "title": "A patch applied to its own source is always clean", "statement": "Applying a generated text diff to its own source (forward to before, reverse to after) succeeds with every clump counted clean and none fuzzy, already applied or failed.", "quantifier": "every pair of texts, context and direction", "why_tests_cant": "all inputs", "anchors": ["pw_diff_lib/src/apply_text.rs ApplyClumpsFuzzy::apply_into", "pw_diff_lib/src/apply_text.rs Statistics"]}
{"id": "C27", "title": "Applying an empty patch copies the file", "statement": "apply_into with no clumps writes exactly the patchable and reports all-zero statistics.", "quantifier": "every patchable and direction", "why_tests_cant": "all inputs", "anchors": ["pw_diff_lib/src/apply_text.rs ApplyClumpsFuzzy::apply_into", "pw_diff_lib/src/apply_bytes.rs ApplyClumpsClean::apply_into"]}
{"id": "C28", "title": "Statistics account for every clump", "statement": "Whenever apply_into succeeds the five statistics add up to the number of clumps of the patch.", "quantifier": "every patch (generated or hand made), patchable, direction", "why_tests_cant": "all patches and files", "anchors": ["pw_diff_lib/src/apply_text.rs ApplyClumpsFuzzy::apply_into"]}
{"id": "C29", "title": "will_apply is exact", "statement": "will_apply answers Cleanly iff the clump's old lines stand in the patchable at the clump's start plus offset; it answers WithReductions(r) only if that fails, and then r is the first reduction in the order 1,2,... whose trimmed old lines stand there.", "quantifier": "every clump, patchable, offset, direction", "why_tests_cant": "all clumps and files", "anchors": ["pw_diff_lib/src/apply_text.rs ApplyClumpFuzzy::will_apply"]}
{"id": "C30", "title": "Fuzz never gives up all context", "statement": "Reductions returned by will_apply are at least 1 on a side with context and strictly smaller than the longer recorded context length; with context lengths of at most one no reduction is ever used.", "quantifier": "every clump, patchable, offset, direction", "why_tests_cant": "all clumps", "anchors": ["pw_diff_lib/src/apply_text.rs ApplyClumpFuzzy::will_apply"]}
{"id": "C31", "title": "Nearby search finds the nearest place", "statement": "will_apply_nearby terminates; the displacement it returns is one at which will_apply succeeds, lies between the consumed position and the upper limit, no smaller displacement in those bounds works, and at equal distance the earlier place is preferred; None means no place in bounds works.", "quantifier": "every clump, next clump, patchable, consumed position, offset, direction", "why_tests_cant": "unbounded search loop; termination and optimality over all inputs", "anchors": ["pw_diff_lib/src/apply_text.rs ApplyClumpFuzzy::will_apply_nearby"]}
{"id": "C32", "title": "Reverse is forward of the swapped patch", "statement": "Applying a patch in reverse has exactly the same result (output, statistics, errors, panics) as applying forward the patch with before and after exchanged in every clump.", "quantifier": "every patch, patchable and writer", "why_tests_cant": "all patches and files", "anchors": ["pw_diff_lib/src/apply_text.rs ApplyClumpFuzzy", "pw_diff_lib/src/text_diff.rs TextChangeClump", "pw_diff_lib/src/apply_bytes.rs", "pw_diff_lib/src/byte_diff.rs"]}
{"id": "C33", "title": "A patch is recognised as already applied", "statement": "is_already_applied (text) is true for the diff of (before, after) on after, and for the reverse direction on before.", "quantifier": "every pair of texts and context", "why_tests_cant": "all inputs", "anchors": ["pw_diff_lib/src/apply_text.rs ApplyClumpsFuzzy::is_already_applied"]}
{"id": "C34", "title": "Applying a patch twice is the same as once", "statement": "Applying the diff of (before, after) to after leaves after unchanged and counts every clump as already applied.", "quantifier": "every pair of texts and context", "why_tests_cant": "all inputs (found FALSE; partial theorem when no clump's old text is found)", "anchors": ["pw_diff_lib/src/apply_text.rs ApplyClumpsFuzzy::apply_into"]}
{"id": "C35", "title": "Fuzzy application writes the trimmed new lines", "statement": "When a clump applies with reductions (s,e), apply_into writes the unconsumed text up to the match and then the new lines without the first s and last e.", "quantifier": "every clump, patchable, offset, reductions", "why_tests_cant": "all clumps (found FALSE: file coordinates are used to index the snippet, so it panics or writes shifted lines unless the clump starts at line 0)", "anchors": ["pw_diff_lib/src/apply_text.rs before_write_into", "pw_diff_lib/src/snippet.rs Snippet::items"]}
{"id": "C36", "title": "Failed clumps lose nothing", "statement": "If no clump of a patch can be placed, apply_into succeeds, counts every clump as failed and writes one marked conflict block per clump followed by the unmodified file.", "quantifier": "every patch and patchable for which no clump can be placed", "why_tests_cant": "all patches and files", "anchors": ["pw_diff_lib/src/apply_text.rs write_failure_data_into", "pw_diff_lib/src/apply_text.rs ApplyClumpsFuzzy::apply_into"]}
{"id": "C37", "title": "A failing writer never corrupts", "statement": "If the output writer fails after n bytes, apply_into returns the error and exactly the first n bytes of the full output were written; if it does not fail the output is independent of the writer.", "quantifier": "every patch, patchable, direction and failure point", "why_tests_cant": "all crash points", "anchors": ["pw_diff_lib/src/apply_text.rs ApplyClumpsFuzzy::apply_into", "pw_diff_lib/src/apply_bytes.rs ApplyClumpsClean::apply_into"]}
{"id": "C38", "title": "Displaced files are patched at the displacement", "statement": "If the old text of every clump stands in the patchable displaced by d lines, and the first clump fits nowhere nearer, then apply_into applies all clumps at displacement d.", "quantifier": "every patch and displaced file", "why_tests_cant": "all displacements and files", "anchors": ["pw_diff_lib/src/apply_text.rs ApplyClumpsFuzzy::apply_into", "pw_diff_lib/src/apply_text.rs will_apply_nearby"]}
{"id": "C39", "title": "Patching never panics", "statement": "apply_into returns normally (Ok or io error) for every generated patch and every patchable.", "quantifier": "every generated patch and patchable, debug and release", "why_tests_cant": "all inputs (found FALSE: underflow on short files in debug builds, index panic on fuzzy application)", "anchors": ["pw_diff_lib/src/apply_text.rs will_apply_nearby", "pw_diff_lib/src/apply_text.rs before_write_into"]}
{"id": "C40", "title": "Byte diff then patch reproduces the second file", "statement": "Applying the byte diff of (before, after) to before writes exactly after, and in reverse to after writes before.", "quantifier": "every pair of byte strings, every context, both directions", "why_tests_cant": "round-trip over all inputs (found FALSE; partial)", "anchors": ["pw_diff_lib/src/byte_diff.rs ByteChangeDiff::new", "pw_diff_lib/src/apply_bytes.rs ApplyClumpsClean::apply_into"]}
{"id": "C41", "title": "Byte patch recognised as already applied", "statement": "already_applied is true for the byte diff of (before, after) on after.", "quantifier": "every pair of byte strings and context", "why_tests_cant": "all inputs (FALSE when a clump's new bytes are an empty slice at end of file)", "anchors": ["pw_diff_lib/src/apply_bytes.rs ApplyClumpsClean::already_applied"]}
{"id": "C42", "title": "Byte clumps that do not fit are skipped", "statement": "If no clump of a byte patch is applicable or already applied, apply_into succeeds and writes the file unchanged (the failure is only logged).", "quantifier": "every byte patch and file", "why_tests_cant": "all patches and files", "anchors": ["pw_diff_lib/src/apply_bytes.rs ApplyClumpsClean::apply_into"]}
{"id": "C43", "title": "Diff::new picks the variant from existence and readability", "statement": "Diff::new yields TextChange/ByteChange if both files exist, TextRemove/ByteRemove if only the first, TextAdd/ByteAdd (with the first path recorded) if only the second, an error if neither; the text variant exactly when all involved files are readable valid UTF-8.", "quantifier": "every pair of paths and every file system state", "why_tests_cant": "all file contents", "anchors": ["pw_diff_lib/src/diff.rs Diff::new"]}
{"id": "C44", "title": "Add and remove records are lossless", "statement": "write_into of a PathAndLines / PathAndBytes built from a file writes exactly the file's content, and change_path changes only the recorded path.", "quantifier": "every file", "why_tests_cant": "all contents", "anchors": ["pw_diff_lib/src/text_diff.rs PathAndLines", "pw_diff_lib/src/byte_diff.rs PathAndBytes"]}
{"id": "C45", "title": "Serialised diffs read back unchanged", "statement": "Reading with from_reader what to_writer wrote gives the same diff, for every variant; to_writer fails exactly when a recorded path is not valid UTF-8.", "quantifier": "every diff value", "why_tests_cant": "all diff values, all string contents", "anchors": ["pw_diff_lib/src/diff.rs from_reader/to_writer", "pw_diff_lib/src/text_diff.rs", "pw_diff_lib/src/byte_diff.rs", "pw_diff_lib/src/snippet.rs"]}
{"id": "C46", "title": "pw_patch replaces the file atomically", "statement": "At every point at which pw_patch may stop (crash, io error, panic) while applying a change diff, the target file holds either its complete old content or the complete patched content, and no other file except the temporary one is touched.", "quantifier": "every change diff, file system and stop point", "why_tests_cant": "all crash points", "anchors": ["pw_patch/src/main.rs Diff::TextChange arm", "pw_patch/src/main.rs Diff::ByteChange arm"]}
{"id": "C47", "title": "Adding and removing files are inverse and never overwrite", "statement": "pw_patch on an add diff creates the file with the recorded content only if it does not exist and never changes an existing file; on a remove diff deletes it; reverse undoes forward. (False: a file is removed whatever it contains, and one that was there already is removed by the reverse run. Proved: exactly when the two runs restore the state.)", "quantifier": "every add/remove diff and file system", "why_tests_cant": "all file systems", "anchors": ["pw_patch/src/main.rs TextAdd/TextRemove/ByteAdd/ByteRemove arms"]}
{"id": "C48", "title": "Exit status reports success", "statement": "pw_patch exits with 0 only if the requested change was made (all clumps placed, file created or removed).", "quantifier": "every diff, file system and fault", "why_tests_cant": "all faults (found FALSE: failed clumps and failed creations exit 0)", "anchors": ["pw_patch/src/main.rs"]}
{"id": "C49", "title": "pw_diff followed by pw_patch turns the first file into the second", "statement": "Running pw_patch on the diff pw_diff wrote for two paths makes the first path's content equal to the second's (add, remove and change), and with --reverse restores it.", "quantifier": "every pair of files and context", "why_tests_cant": "end-to-end over all files (FALSE in general; partial)", "anchors": ["pw_diff/src/main.rs", "pw_patch/src/main.rs", "pw_diff_lib/src/diff.rs"]}
{"id": "C50", "title": "Unified hunk headers round-trip", "statement": "Parsing the displayed form of a hunk header gives back the same starts and lengths.", "quantifier": "every pair of starts and lengths below 2^64", "why_tests_cant": "all numbers", "anchors": ["pw_cub_diff_lib/src/unified_diff.rs StartsAndLengths Display", "pw_cub_diff_lib/src/unified_diff.rs starts_and_lengths"]}
{"id": "C51", "title": "Unified hunk parsing consumes what it announces", "statement": "When get_from_at returns a clump, the lines it says it consumed lie inside the input, it has at least as many old and new lines as the header announces, exactly as many on at least one side, and exactly the announced lines whenever the lines after the header begin with a well-formed hunk.", "quantifier": "every input and start index", "why_tests_cant": "all inputs (exact counts found FALSE: lines of one kind can overshoot)", "anchors": ["pw_cub_diff_lib/src/unified_diff.rs UnifiedDiffClump::get_from_at"]}
{"id": "C52", "title": "Unified hunk parsing strips the markers", "statement": "The before/after lines of a parsed clump are the file lines without the leading marker character.", "quantifier": "every input", "why_tests_cant": "all inputs (found FALSE: the marker stays in the line)", "anchors": ["pw_cub_diff_lib/src/unified_diff.rs UnifiedDiffClump::get_from_at"]}
{"id": "C53", "title": "Unified output describes both files", "statement": "For every generated unified clump the ' ' and '-' lines are, in order, exactly the old range of the header, and the ' ' and '+' lines exactly the new range; generation never panics.", "quantifier": "every pair of texts and every context", "why_tests_cant": "all inputs (new side only as far as NoChange blocks are truthful)", "anchors": ["pw_cub_diff_lib/src/unified_diff.rs UnifiedClumpIter"]}
{"id": "C54", "title": "Unified output can be parsed back", "statement": "The text of a generated unified clump, put anywhere into a text between whole lines and read again, is parsed with the same header, the same marked lines, the context lengths of the clump, and the number of lines consumed.", "quantifier": "every pair of texts with a final newline, every context", "why_tests_cant": "all inputs (FALSE without final newline: '+b-a' glue; FALSE in debug builds for contexts above 128: u8 overflow)", "anchors": ["pw_cub_diff_lib/src/unified_diff.rs UnifiedClumpIter", "pw_cub_diff_lib/src/unified_diff.rs UnifiedDiffClump::get_from_at"]}
{"id": "C55", "title": "File header lines are parsed as written", "statement": "before_path_and_time_stamp / after_path_and_time_stamp never panic and recover the path of a '--- path<tab>timestamp' line.", "quantifier": "every line / every path without whitespace or quotes and every timestamp", "why_tests_cant": "all lines", "anchors": ["pw_cub_diff_lib/src/unified_diff.rs before_path_and_time_stamp", "pw_cub_diff_lib/src/unified_diff.rs after_path_and_time_stamp"]}
{"id": "C56", "title": "Replaced text shares no line with its replacement", "statement": "In a Replace change of the change list no item of the removed range occurs in the range that replaces it.", "quantifier": "every pair of sequences and every Replace change", "why_tests_cant": "all inputs; depends on the maximality of the block search in every sub-range", "anchors": ["pw_diff_lib/src/changes.rs longest_common_subsequences", "pw_diff_lib/src/changes.rs generate"]}
{"id": "C57", "title": "apply_into follows a deterministic description of patching", "statement": "For well-formed clumps, apply_into ends with result r and output out exactly if the relation Patching (which speaks only of where old and new lines stand in the file) relates the file and the patch to r and out.", "quantifier": "every list of well-formed clumps and every file below 2^60 lines, both build profiles", "why_tests_cant": "complete functional specification over all patches and files, including panics", "anchors": ["pw_diff_lib/src/apply_text.rs ApplyClumpsFuzzy::apply_into", "pw_diff_lib/src/apply_text.rs ApplyClumpFuzzy"]}
{"id": "C58", "title": "Text put around the patched part is kept", "statement": "If text was added before and after the text a patch was made for, the first clump fits nowhere nearer and its displaced place is before the search limit, then apply_into makes the same change as on the original text and keeps the added text.", "quantifier": "every generated patch and every added text", "why_tests_cant": "all texts and displacements", "anchors": ["pw_diff_lib/src/apply_text.rs ApplyClumpsFuzzy::apply_into"]}
{"id": "C59", "title": "Clumps are whole stretches of the change list with exact context", "statement": "Every clump of a diff consists of consecutive changes of the change list; the leading context is the last min(context, length) items of the unchanged block before its first change, the trailing context the first min(context, length) items of the unchanged block after its last change, and unchanged blocks inside are complete.", "quantifier": "every pair of sequences and every context", "why_tests_cant": "upper bounds on the context length hold also for programs that lose context; exactness over all inputs needs the loop invariant of the clump iterator", "anchors": ["pw_diff_lib/src/changes.rs ChangeClumpIter::next"]}
{"id": "C60", "title": "Byte patching follows a deterministic description", "statement": "apply_into of a byte patch ends with result r and output out exactly if the relation BytePatching (which speaks only of where old and new bytes stand in the file) relates the file and the patch to r and out.", "quantifier": "every list of byte clumps and every file with sizes below 2^64, both build profiles", "why_tests_cant": "complete functional specification over all patches and files, including the panics for overlapping clumps", "anchors": ["pw_diff_lib/src/apply_bytes.rs ApplyClumpsClean::apply_into"]}
{"id": "C61", "title": "pw_diff only writes to its standard output", "statement": "Whatever operations fail, pw_diff changes no file or directory and ends with exit status 0, 1 or 5; when nothing fails the status is 1 exactly if there is no diff, 5 exactly if a recorded path is not UTF-8, and otherwise 0 with the diff on standard output.", "quantifier": "every file system, pair of paths, context and schedule of failures and kills", "why_tests_cant": "failures of every single operation and kills at every point cannot be provoked by tests", "anchors": ["pw_diff/src/main.rs:30-54", "pw_diff_lib/src/diff.rs:23-66"]}
{"id": "C62", "title": "Exit status 0 of pw_diff means a complete diff was written", "statement": "If pw_diff exits with status 0, its standard output can be read back as a diff.", "quantifier": "every file system, pair of paths, context and schedule of failures", "why_tests_cant": "needs a write error at an arbitrary byte of the output, including the flush at process exit", "anchors": ["pw_diff/src/main.rs:30-54", "pw_diff_lib/src/diff.rs:64-66"]}
{"id": "C63", "title": "get_from_at is described completely", "statement": "What get_from_at returns is exactly what a description by cases says (end of input, no header, bad number, incomplete hunk, wrong line, hunk with or without a backslash line); it never panics.", "quantifier": "every list of lines, every start index, both build profiles", "why_tests_cant": "all inputs (the last part found FALSE: exact panic conditions proved)", "anchors": ["pw_cub_diff_lib/src/unified_diff.rs UnifiedDiffClump::get_from_at"]}
{"id": "C64", "title": "Hunk headers are exactly the lines of header form", "statement": "A line is taken for a hunk header exactly if it has the form '@@ -n[,n] +n[,n] @@\u2026'; the numbers are what the digits mean, an omitted length is 1; if a number does not fit the error names the line; there is no other error.", "quantifier": "every line", "why_tests_cant": "all lines, all digits", "anchors": ["pw_cub_diff_lib/src/unified_diff.rs starts_and_lengths", "pw_cub_diff_lib/src/unified_diff.rs start_and_length_from_captures"]}
{"id": "C65", "title": "Hunk headers of generated clumps count from 1", "statement": "The start in a generated hunk header is the number of the first line counted from 1, as in the unified format.", "quantifier": "every pair of texts", "why_tests_cant": "all inputs (found FALSE: it counts from 0)", "anchors": ["pw_cub_diff_lib/src/unified_diff.rs UnifiedClumpIter"]}
{"id": "C66", "title": "Parsed clumps can deliver the lines they announce", "statement": "before_lines of a parsed clump answers any range inside before_length without panic, forwards and in reverse.", "quantifier": "every input that parses, every range", "why_tests_cant": "all inputs", "anchors": ["pw_cub_diff_lib/src/unified_diff.rs TextClumpBasics for UnifiedDiffClump"]}
{"id": "C67", "title": "A backslash line inside a hunk is an error", "statement": "If a backslash line comes before the announced lines are complete, parsing fails with UnexpectedEndClump at that line (so the old file's missing newline cannot be expressed before '+' lines).", "quantifier": "every header and every incomplete hunk", "why_tests_cant": "all inputs", "anchors": ["pw_cub_diff_lib/src/unified_diff.rs UnifiedDiffClump::get_from_at"]}
{"id": "C68", "title": "Replaced lines: removed before added", "statement": "Where lines are replaced the '-' lines stand before the '+' lines.", "quantifier": "every pair of texts", "why_tests_cant": "all inputs (found FALSE: only if fewer lines are removed than added)", "anchors": ["pw_cub_diff_lib/src/unified_diff.rs UnifiedClumpIter"]}
{"id": "C69", "title": "The block search is completely determined", "statement": "In every pair of ranges the search returns one specific block: a longest common run, the first such run in the new sequence (then in the old one), lengthened by the equal items that follow the next pair.", "quantifier": "every pair of sequences and every pair of ranges inside them (if and only if)", "why_tests_cant": "an exact description quantifies over all runs of all inputs", "anchors": ["pw_diff_lib/src/changes.rs ChangesGenerator::longest_common_subsequence"]}
{"id": "C70", "title": "The change list is completely determined", "statement": "generate() returns the one list of proper changes that tiles both sequences, alternates between blocks and changes and keeps exactly the item pairs covered by the recursively chosen blocks; such blocks exist and are unique for all inputs.", "quantifier": "every pair of sequences (if and only if)", "why_tests_cant": "no finite test suite can show that a description has exactly one solution for every input", "anchors": ["pw_diff_lib/src/changes.rs longest_common_subsequences", "pw_diff_lib/src/changes.rs generate"]}
{"id": "C71", "title": "Minimal diff when common lines are unique and in order", "statement": "If the lines common to both files occur once in each and in the same order, and no single differing pair stands between two equal ones, exactly the common lines are kept.", "quantifier": "every such pair of sequences", "why_tests_cant": "all inputs of unbounded length", "anchors": ["pw_diff_lib/src/changes.rs generate"]}
{"id": "C72", "title": "A common core is kept whole", "statement": "If the two files are a common core surrounded by lines that do not occur in the other file, exactly the core is kept and each side is one insert, delete or replace, however repetitive the core is.", "quantifier": "every core and every four surrounding pieces", "why_tests_cant": "all inputs of unbounded length", "anchors": ["pw_diff_lib/src/changes.rs generate"]}
{"id": "C73", "title": "When a one-line edit is lost", "statement": "In files of pairwise different lines, replacing one line by a new one gives an empty diff exactly if it is not the last line and at least as many lines stand before it as after it; otherwise the diff is exactly that replacement.", "quantifier": "every file of different lines, every position", "why_tests_cant": "the family of inputs on which the edit is lost is infinite; the tests contain none of them", "anchors": ["pw_diff_lib/src/changes.rs longest_common_subsequence (forward extension, lines 193-206)"]}
{"id": "C74", "title": "An incomplete diff is refused", "statement": "If any number of bytes is missing from the end of a written diff, from_reader fails, and pw_patch then changes nothing whatever else goes wrong; however pw_diff ends and whatever fails, what it leaves on its standard output is refused or is read as the diff that was made.", "quantifier": "every diff whose values fit their types, every number of missing bytes, every schedule of failures", "why_tests_cant": "every proper initial part of every diff, including cuts inside of multi-byte characters and numbers", "anchors": ["pw_diff_lib/src/diff.rs:60-66", "pw_patch/src/main.rs:25-50", "pw_diff/src/main.rs:30-54"]}
{"id": "C75", "title": "What a diff records is so, whatever fails", "statement": "If Diff::new makes a diff, its kind is the one that the existence of the two files demands and the recorded paths, contents and clumps are those of the files, whatever operations fail.", "quantifier": "every file system, pair of paths, context and schedule of failures", "why_tests_cant": "needs errors of single operations (stat, open, read) at arbitrary points", "anchors": ["pw_diff_lib/src/diff.rs:15-58", "pw_diff_lib/src/text_diff.rs:141-158", "pw_diff_lib/src/byte_diff.rs:97-111"]}
{"id": "C76", "title": "A text patch can always be taken back", "statement": "A patch applied to its own source leaves a text with as many lines as the target, in which every line is the target's line with that number or a line of the source left between two equal pairs; the patch is recognised as applied on that text, and in reverse it applies cleanly and restores the source exactly. The same with source and target exchanged.", "quantifier": "every pair of texts of up to 2^63/24 lines, every context 0..255", "why_tests_cant": "includes all inputs on which the patch does not reproduce the target (C24), of which the tests contain none", "anchors": ["pw_diff_lib/src/apply_text.rs:258-363", "pw_diff_lib/src/changes.rs:185-214"]}
{"id": "C77", "title": "A byte patch can always be taken back", "statement": "The same for byte patches with context at least 1 between files that are not empty.", "quantifier": "every pair of nonempty byte strings, every context 1..255", "why_tests_cant": "all byte strings, including those on which the patch does not reproduce the target", "anchors": ["pw_diff_lib/src/apply_bytes.rs", "pw_diff_lib/src/byte_diff.rs"]}
{"id": "C78", "title": "pw_diff, pw_patch, pw_patch --reverse restores the file", "statement": "For two existing text files, pw_diff, pw_patch and pw_patch --reverse all exit with 0; the patched file differs from the second one only in lines left between two equal pairs, and the reverse run restores the first file exactly; no other entry changes. For files that are not text the same holds with context at least 1 and both files not empty.", "quantifier": "every pair of contents, every context, every file system with free names for patch and temporary file", "why_tests_cant": "composition of three program runs over all contents", "anchors": ["pw_diff/src/main.rs:30-54", "pw_patch/src/main.rs:25-240"]}
{"id": "C79", "title": "No line is lost", "statement": "If apply_into succeeds on any file, the output is the file with the old lines of clumps, at places where they stand, replaced by the new lines (both without the same part of the context), and conflict blocks put in; all other lines of the file are there, in order.", "quantifier": "every generated patch, every file", "why_tests_cant": "needs files to which a part of the patch has already been applied and which repeat lines; arbitrary interplay of clumps", "anchors": ["pw_diff_lib/src/apply_text.rs:134-147", "pw_diff_lib/src/apply_text.rs:213-224", "pw_diff_lib/src/apply_text.rs:258-351"]}
{"id": "C80", "title": "One edited region is found exactly", "statement": "If the lines around an edited region are pairwise different and do not occur in it, and the old and new lines of the region have nothing in common and are not one line each, the change list is exactly: the lines before, one insert/delete/replace of the region, the lines after; pw_diff and pw_patch carry the edit over and pw_patch --reverse takes it back.", "quantifier": "every such pair of files (the region may repeat lines), every context", "why_tests_cant": "infinite family of inputs; exact result of the search heuristics", "anchors": ["pw_diff_lib/src/changes.rs:120-330"]}
{"id": "C81", "title": "A lost edit is lost silently", "statement": "For two files of pairwise different lines that differ in one line which is not the last and has at least as many lines before it as after it, pw_diff exits with 0 and writes the same patch as for two equal files, and pw_patch exits with 0 and leaves the first file's content unchanged.", "quantifier": "every such pair of files, every context, every file system", "why_tests_cant": "infinite family; behaviour of both programs composed", "anchors": ["pw_diff_lib/src/changes.rs:185-214", "pw_diff/src/main.rs:30-54", "pw_patch/src/main.rs:52-99"]}
{"id": "C82", "title": "What is_already_applied answers", "statement": "is_already_applied answers yes exactly if every clump's new lines (with as little context given up as possible) stand at the expected place or are found by the nearby search, displacements being carried over to later clumps; no if a clump is not found; and it crashes exactly if the search limit of a clump underflows in a debug build. If it answers yes, the new lines of every clump, without some of the context, stand in the file. Expected in addition: after a yes, apply_into fails no clump (false: the clumps' new lines are accepted in any order).", "quantifier": "every well-formed list of clumps, every file shorter than the size limit, both profiles", "why_tests_cant": "exact characterisation over all patches and files, including the search order", "anchors": ["pw_diff_lib/src/apply_text.rs:353-389"]}
{"id": "C83", "title": "When a patch applies cleanly elsewhere", "statement": "A patch made from before and after applies to any other file with all clumps clean if and only if the old lines of every clump stand in that file at the recorded places. Then the result has the expected length, is recognised as already applied, and applying the patch in reverse gives the file back byte for byte. The same holds for byte patches (if no clump's new bytes are empty).", "quantifier": "every before, after, context, every other file, all profiles", "why_tests_cant": "quantifies over every third file", "anchors": ["pw_diff_lib/src/apply_text.rs:213-351"]}
{"id": "C84", "title": "Byte patches lose nothing", "statement": "If a byte patch is applied with success, the result is the file with some clumps' old bytes replaced by their new bytes and nothing else lost (false in general: on a partly patched file bytes are dropped silently; true if no clump is taken for already applied).", "quantifier": "every before, after, context, every other byte content", "why_tests_cant": "quantifies over every third file", "anchors": ["pw_diff_lib/src/apply_bytes.rs:1-72"]}
{"id": "C85", "title": "Text after a diff", "statement": "A written diff followed by further bytes is read as the same diff if these are JSON white space and refused otherwise; in particular a file of several diffs written one after the other is refused and pw_patch changes nothing, whatever faults occur.", "quantifier": "every diff, every further bytes, every world with any faults", "why_tests_cant": "every diff and every byte string", "anchors": ["pw_diff_lib/src/diff.rs:60-66", "pw_patch/src/main.rs:25-50"]}
{"id": "C86", "title": "Everything pw_patch does when nothing fails", "statement": "When no operation fails, pw_patch does exactly one of: nothing with status 1 (patch file is not a diff; target cannot be read; temporary file cannot be created; file to be removed is not there), nothing with status 101 (applying panics), nothing with status 0 (file to be created exists), or status 0 and only the one file changed/created/removed as the diff says. No temporary file stays behind, even if the program panics. With reasonable sizes the program ends.", "quantifier": "every patch file (also hand-made), every file system, both profiles, both directions", "why_tests_cant": "exact effect for every patch file and file system", "anchors": ["pw_patch/src/main.rs:25-245"]}
{"id": "C87", "title": "The temporary file is cleaned up", "statement": "Unless it is killed, pw_patch leaves no temporary file behind (false: if writing or renaming fails, the file stays behind with an initial part of the output, for every diff). What does hold under all faults: an existing file in that place is left alone, a leftover holds an initial part of what was to be written, and the status is then not 0.", "quantifier": "every diff, file system and fault schedule", "why_tests_cant": "every fault schedule", "anchors": ["pw_patch/src/main.rs:69-98", "pw_patch/src/main.rs:165-194"]}
{"id": "C88", "title": "Exactly the JSON documents that stand for a diff are accepted", "statement": "Diff::from_reader returns a diff exactly for UTF-8 encoded JSON documents (RFC 8259) with the structure of that diff: fields once each in any order, unknown fields ignored, structs also as arrays, numbers in the range of their types. A text stands for at most one diff; every diff that is read can be written again and is then read as the same diff; pw_patch given anything else changes nothing.", "quantifier": "every byte string, every diff, every fault schedule", "why_tests_cant": "the accepted language is infinite, and most of what must be refused looks almost right", "anchors": ["pw_diff_lib/src/diff.rs:12-20", "pw_diff_lib/src/diff.rs:60-66", "pw_patch/src/main.rs:57-67"]}
{"id": "C89", "title": "Changes written on their own", "statement": "TextChangeDiff and ByteChangeDiff survive being written and read by their own to_writer and from_reader. No file is both such a change and a Diff. A written text change is never read as a byte change; a written byte change is read as a text change exactly if it contains no byte (unknown fields are ignored and nothing records the kind).", "quantifier": "every diff and every byte string", "why_tests_cant": "the accepted language is infinite; the confusion of the two kinds happens only for special diffs", "anchors": ["pw_diff_lib/src/text_diff.rs:85-90", "pw_diff_lib/src/text_diff.rs:108-122", "pw_diff_lib/src/byte_diff.rs:88-94", "pw_diff_lib/src/byte_diff.rs:113-127"]}
{"id": "C90", "title": "The accessors of changes and clumps agree with their sides", "statement": "For a change, a patch clump and a parsed hunk: before_start, before_end, before_length, before_range and my_before_range describe the side that is to be replaced in the given direction, after_start, after_end, after_length, after_range and my_after_range the side that replaces it; with reductions the ranges shrink by them.", "quantifier": "every change, clump and hunk whose numbers fit the machine word, every reduction that fits, both directions, both build profiles", "why_tests_cant": "the accessors take two directions, reductions and three types; the unit tests call a few combinations on a few values", "anchors": ["pw_diff_lib/src/changes.rs:22-68", "pw_diff_lib/src/changes.rs:70-106", "pw_diff_lib/src/text_diff.rs:33-49", "pw_cub_diff_lib/src/unified_diff.rs:202-222"]}
{"id": "C91", "title": "The search for a place takes time in proportion to the sizes of the file and the patch", "statement": "The number of rounds of the loop of will_apply_nearby is bounded by the number of lines of the file and of the clump.", "quantifier": "every clump, file and offset", "why_tests_cant": "a test cannot measure all inputs; a patch whose start is large is needed, and then a failing test would not end", "anchors": ["pw_diff_lib/src/apply_text.rs:149-192"]}
{"id": "C92", "title": "Patches to different parts of a file can be applied in either order", "statement": "Two patches made from the same file, all clumps of the first one before all clumps of the second one, give the same text in whichever order they are applied.", "quantifier": "every file, both second files, every context length, both build profiles", "why_tests_cant": "needs pairs of patches and files with repeated lines; the tests apply single patches", "anchors": ["pw_diff_lib/src/apply_text.rs:258-351", "pw_diff_lib/src/apply_text.rs:149-192"]}
{"id": "C93", "title": "No error shown means that the change was made", "statement": "If pw_patch exits with status 0 and shows no error message, the change that the patch file describes was made, whatever the verbosity; if it exits with another status it shows exactly one error. The messages of success are true.", "quantifier": "every patch file, file system state, schedule of failing operations and kills, verbosity, direction, build profile", "why_tests_cant": "the tests run neither program; which messages are hidden depends on the crate that logs them", "anchors": ["pw_patch/src/main.rs:25-245", "pw_diff/src/main.rs:30-54", "pw_diff_lib/src/apply_text.rs:340-346"]}
{"id": "C94", "title": "One message for every clump", "statement": "Applying a text patch logs, in order, one message for every clump with its number, at the level that belongs to its kind, and the statistics returned are the numbers of messages of each kind. Asking whether a patch is already applied logs one message for each clump up to the first that is not, which is the only error. Logging changes neither result nor output.", "quantifier": "every list of clumps, file, writer (also failing ones), direction, build profile", "why_tests_cant": "the tests do not look at the log", "anchors": ["pw_diff_lib/src/apply_text.rs:258-351", "pw_diff_lib/src/apply_text.rs:353-389", "pw_diff_lib/src/apply_bytes.rs:58-71"]}
{"id": "C95", "title": "The messages about clumps are true", "statement": "Every message about a clump is true of the file: the lines of the clump, reduced as told, stand at the place that follows from the clump and the displacements told so far, and what would have been tried before does not fit. For bytes: the message tells whether the old bytes are found, else the new ones, else neither.", "quantifier": "every file and list of well-formed clumps (bytes: any clumps), both directions, every writer", "why_tests_cant": "the offset carried along the clumps matters only in files with several displaced clumps", "anchors": ["pw_diff_lib/src/apply_text.rs:258-351", "pw_diff_lib/src/apply_bytes.rs:34-56"]}
{"id": "C96", "title": "Ranges, common runs and snippets", "statement": "The accessors of a range, a common run and a snippet describe the same positions and items; growing a run adds exactly the neighbouring pairs, trimming keeps exactly the first or last ones, splitting gives two parts that do not overlap exactly if the run is long enough; with reductions the accessors of a snippet describe the items that are left, writing it writes exactly these, and reductions that do not fit are a panic with nothing written.", "quantifier": "every range, run, snippet, size, offset and reductions that fit, both build profiles", "why_tests_cant": "the tests of range.rs check three ranges; runs and snippets have no tests of their own, and some of the accessors are public but not used inside the crate", "anchors": ["pw_diff_lib/src/range.rs:16-42", "pw_diff_lib/src/common_subsequence.rs:9-73", "pw_diff_lib/src/snippet.rs:20-84"]}
{"id": "C97", "title": "Context lines do not matter for the own source", "statement": "What a patch makes of the file it was made from does not depend on the number of context lines it was made with; as it does in the code: which lines come out wrong for which context.", "quantifier": "every pair of files of any items (lines or bytes), every two numbers of context lines up to 255, both directions", "why_tests_cant": "the tests apply patches made with one fixed context to one pair of files, on which nothing is lost", "anchors": ["pw_diff_lib/src/changes.rs:140-210", "pw_diff_lib/src/changes.rs:468-552", "pw_diff_lib/src/apply_text.rs:258-351", "pw_diff_lib/src/apply_bytes.rs:34-56"]}
{"id": "C98", "title": "Debug and release builds agree", "statement": "Whatever is computed by a build with overflow checks is computed by a build without them; as it is in the code: the builds differ only where the debug build panics, and never for diffs and byte patches.", "quantifier": "every patch (also hand-made), file, writer and direction; every state of the file system and schedule of faults", "why_tests_cant": "tests run in one build (normally debug); wrapping in release builds is never tested", "anchors": ["pw_diff_lib/src/apply_text.rs:20-393", "pw_diff_lib/src/apply_bytes.rs:34-56", "pw_diff_lib/src/changes.rs:140-330", "pw_cub_diff_lib/src/unified_diff.rs:129-201", "pw_diff/src/main.rs:26-54", "pw_patch/src/main.rs:45-245"]}
{"id": "C99", "title": "Which clumps there are", "statement": "The clumps of a diff are exactly the stretches of changes that are not separated by an unchanged block of at least twice the context; their number is one more than the number of separating blocks, or none; more context never makes more of them. A unified diff has as many hunks.", "quantifier": "every two sequences, every number of context lines", "why_tests_cant": "the tests look at the clumps of one pair of files with a few numbers of context lines", "anchors": ["pw_diff_lib/src/changes.rs:468-556", "pw_diff_lib/src/text_diff.rs:22-31", "pw_cub_diff_lib/src/unified_diff.rs:260-340"]}
{"id": "C100", "title": "The lines of a patched file", "statement": "Every line of a patched text is a line of the file, a line of the patch, or a conflict marker; as it is in the code: what is written is put together from such lines and there are markers only if a clump failed, but lines can be joined if the last line of the file or of the patch has no newline.", "quantifier": "every patch (also hand-made), file, direction and outcome; for generated patches every three texts", "why_tests_cant": "the tests patch texts that end in newlines", "anchors": ["pw_diff_lib/src/apply_text.rs:73-99", "pw_diff_lib/src/apply_text.rs:226-232", "pw_diff_lib/src/apply_text.rs:258-351", "pw_diff_lib/src/sequence.rs:156-174"]}
{"id": "C101", "title": "Diffing and patching depend only on which lines are equal", "statement": "The change list depends only on the lengths and on which line of the one file equals which line of the other; if lines are replaced by others, different ones by different ones, then the diff, the result of patching and the answer whether a patch is already applied are the same up to this replacement.", "quantifier": "every two sequences of any items, every patch (also hand-made, own format or hunks), file, direction and outcome, every replacement that is injective on the lines that occur", "why_tests_cant": "this is about pairs of runs on infinitely many related inputs; the tests compare single runs with fixed texts", "anchors": ["pw_diff_lib/src/changes.rs:140-330", "pw_diff_lib/src/sequence.rs:60-150", "pw_diff_lib/src/apply_text.rs:20-393"]}
{"id": "C102", "title": "Patching with the hunks of a unified diff", "statement": "A unified diff that was read back patches like the diff of the library's own format, so it turns the first text into the second; as it is in the code: all hunks are read and patch exactly like clumps with the same lines, but their lines keep the markers, so that none applies; without the markers the claim holds.", "quantifier": "every two texts that end in newlines, every context up to 128 (255 in release builds), every file and direction", "why_tests_cant": "no test applies hunks of a unified diff", "anchors": ["pw_cub_diff_lib/src/unified_diff.rs:119-244", "pw_cub_diff_lib/src/unified_diff.rs:246-327", "pw_diff_lib/src/apply_text.rs:20-393"]}
{"id": "C103", "title": "Several runs of pw_patch at the same time", "statement": "Any number of runs of pw_patch that change files, taking turns in any order, failing or killed anywhere: at every time each file holds exactly what some of the patches, each applied completely and at most once, make of its first content one after the other, nothing else changes but the temporary files, no patch of a run that ended with an error is among them, and a run that exits with 0 has put its result in place at some time.", "quantifier": "every number of runs, all patches that change files, all orders of their operations, all fault and kill schedules", "why_tests_cant": "the tests run one program at a time and no schedule is controlled", "anchors": ["pw_patch/src/main.rs:25-99", "pw_patch/src/main.rs:148-195"]}
{"id": "C104", "title": "No change is lost when patches are applied at the same time", "statement": "When several runs of pw_patch have ended with exit status 0 every file holds the changes of all of them; as it is in the code: if two runs have read the file before one replaces it, the change of that one is lost, whatever the patches are; it holds if the runs for the file do not overlap.", "quantifier": "every two patches for a file (loss); all runs and orders without overlap", "why_tests_cant": "no test runs two programs at the same time", "anchors": ["pw_patch/src/main.rs:52-99", "pw_patch/src/main.rs:148-195"]}
{"id": "C105", "title": "How much applying clumps can write", "statement": "Whatever the clumps are, also hand-made ones, whatever the file is, in both directions, in both builds, and however it ends: what applying text clumps (or hunks) writes is no larger than the file, both sides of every clump and 24 bytes for the markers of every clump; if no clump failed no larger than the file and the new sides; byte patches never more than the file and the new sides.", "quantifier": "all lists of clumps and hunks, all files, both directions, both build profiles (fewer than 2^64 lines altogether)", "why_tests_cant": "the tests apply patches made from the files and never look at the size of the output of patches that do not fit", "anchors": ["pw_diff_lib/src/apply_text.rs:149-192", "pw_diff_lib/src/apply_text.rs:258-351", "pw_diff_lib/src/apply_bytes.rs ApplyClumpsClean::apply_into"]}
{"id": "C106", "title": "A patched file is no larger than the file and the patch together", "statement": "Whatever the patch file is, whichever operations fail and wherever the process is killed: a file written by pw_patch, also the temporary one, is no larger than the file that is changed and the patch file together. As it is in the code: true of patch files as pw_diff writes them, false of hand-made ones whose clumps are written as arrays without field names (22 bytes make 24 bytes of markers), true of these with 12/11 of the size of the patch file.", "quantifier": "all patch files and files of less than 2^62 bytes, all fault and kill schedules", "why_tests_cant": "the tests contain no patch file that was not written by the program", "anchors": ["pw_patch/src/main.rs:52-99", "pw_diff_lib/src/apply_text.rs:149-192", "pw_diff_lib/src/diff.rs:60-66"]}
{"id": "C107", "title": "What pw_diff compares while other programs run", "statement": "Among any other processes, whatever they do to the files, taking turns in any order, whichever operations fail: if pw_diff ends with exit status 0 its output is the diff of contents that the two paths had at times, each read as a whole. While runs of pw_patch change files these are contents made by complete patches, each applied at most once, never a half-written file; and runs of pw_diff make no difference to the files and to the runs of pw_patch.", "quantifier": "all machines with any other processes, all orders of turns, all fault and kill schedules", "why_tests_cant": "no test runs two programs at the same time", "anchors": ["pw_diff/src/main.rs:30-54", "pw_diff_lib/src/diff.rs:23-58", "pw_diff_lib/src/text_diff.rs:93-107", "pw_diff_lib/src/byte_diff.rs", "pw_patch/src/main.rs:52-99"]}
{"id": "C108", "title": "pw_diff compares the files as they were at one time", "statement": "While runs of pw_patch change files, the two contents that pw_diff compares existed at the same time. As it is in the code: false; if both files are changed between reading the first and reading the second, the first as it was is compared with the second as it has become, whatever the patches are; it holds if only one of the two files is being changed.", "quantifier": "all files, patches and orders of turns (one file changed); every two patches for two files (failure)", "why_tests_cant": "no test runs two programs at the same time", "anchors": ["pw_diff_lib/src/text_diff.rs:93-107", "pw_diff_lib/src/diff.rs:23-58"]}
{"id": "C109", "title": "How large a diff can be", "statement": "The sides of the clumps of a diff are together no larger than the files, whatever the context, and there are no more clumps than lines; what is written of a diff has at most 292 bytes for every clump, 16 for every line and 6 times the size of what it records; so what pw_diff writes, however it ends, is at most a fixed multiple of the sizes of the two files and the lengths of their names.", "quantifier": "all files smaller than 2^64 bytes, all contexts, both builds, all fault and kill schedules; all diffs that fit their types", "why_tests_cant": "no test looks at the size of a diff", "anchors": ["pw_diff/src/main.rs:30-54", "pw_diff_lib/src/diff.rs:60-66", "pw_diff_lib/src/text_diff.rs:14-40", "pw_diff_lib/src/byte_diff.rs:16-45", "pw_diff_lib/src/changes.rs:457-562"]}
{"id": "C110", "title": "The diff of the exchanged files", "statement": "If the two files are exchanged, the diff is the same with its sides exchanged. As it is in the code: false, of several longest common runs the first one in the second file is taken. Whenever the longest runs taken are the first in both files, in particular if the common lines stand in the same order in both files, it holds; and whether a diff is empty never depends on which file comes first.", "quantifier": "all sequences of lines or bytes, all contexts, both builds", "why_tests_cant": "no test diffs the same files in both directions", "anchors": ["pw_diff_lib/src/changes.rs:140-233", "pw_diff_lib/src/changes.rs:457-562", "pw_diff_lib/src/text_diff.rs:14-40"]}
{"id": "C111", "title": "Which command lines are accepted and what they mean", "statement": "The command lines that are accepted are exactly those of a grammar (long and short options, letters put together, values as next argument, after = or attached, -- before paths) in which neither option is given twice and there are as many paths as wanted; each has one meaning, whatever the order of options; help is printed exactly if it is asked for before anything impossible and before --; everything else is refused. Everything can be said: all paths that are not empty, all contexts up to 255. A path that looks like an option is only taken after --.", "quantifier": "all lists of arguments, which are any bytes; both programs", "why_tests_cant": "no test calls the programs with options", "anchors": ["pw_diff/src/main.rs:12-28", "pw_patch/src/main.rs:16-23"]}
{"id": "C112", "title": "What the programs do with their command line", "statement": "Exit status 2 means exactly that the command line was refused; then nothing has changed. Asking for help changes no file. Otherwise the programs do what the other properties say, with at most 255 lines of context (2 by default) and paths that are not empty, and -v changes only what is shown. So pw_diff never changes a file, whatever its arguments, what it writes is bounded by the sizes of the files, and patching forth and back (C49) does not depend on how the command lines are written.", "quantifier": "all command lines, all states, all fault and kill schedules, both builds", "why_tests_cant": "no test runs the programs", "anchors": ["pw_diff/src/main.rs:12-54", "pw_patch/src/main.rs:16-245"]}
{"id": "C113", "title": "Creating and removing files at the same time", "statement": "Several runs of pw_patch that add or remove files and overlap in any way: a file that is to be added and was there stays as it was; otherwise it comes to hold what exactly one of the runs writes, never a mixture, never overwritten by another, and complete once all runs for it have ended without failures. Of several runs that remove one file at most one ends with exit status 0, and the file is gone exactly if one does; without failures exactly one does and the others end with status 1.", "quantifier": "any number of runs and files, all ways of taking turns operation by operation, all failures and kills", "why_tests_cant": "no test runs anything at the same time", "anchors": ["pw_patch/src/main.rs:100-145", "pw_patch/src/main.rs:196-245"]}
{"id": "C114", "title": "A series of patches can be taken back and made again", "statement": "A file is brought from version to version by pw_diff and pw_patch, any number of times, being changed, removed and created: pw_patch --reverse with all the patches, or only the last ones, the last one first, restores the content there was before them; pw_patch with all of them in order then leads to the same content again. All runs exit with 0 and nothing but the file changes. If between successive versions no single differing pair of lines stands between two equal pairs, the file ends up as the last version.", "quantifier": "all series of versions of any length, of text files or of files that are not text, all contexts, both builds in each direction", "why_tests_cant": "tests apply one patch once; the number of steps is not bounded", "anchors": ["pw_diff/src/main.rs:30-54", "pw_patch/src/main.rs:25-245"]}
{"id": "C115", "title": "How long a comparison takes", "statement": "The search for common blocks (hash lookups, indices visited, items compared) takes at most (2*min(n,m)+1)*(m*(r+3)+1) steps on n and m items if no item occurs more than r times in the old sequence: quadratic if no item is repeated, cubic at worst. No better exponent holds: comparing 2n equal lines with a text in which every second line is replaced takes at least n*n*(n+1) steps, so no constant times the square of the size suffices.", "quantifier": "all pairs of sequences of lines or bytes, both builds", "why_tests_cant": "tests do not measure work, and the slow family shows only for large inputs", "anchors": ["pw_diff_lib/src/changes.rs:140-233"]}
{"id": "C116", "title": "How far a diff is from the smallest one", "statement": "If the two sequences can be aligned with k equal runs (in order, without overlaps) of together N items, the diff leaves at least N/k items unchanged (counting only items of unchanged blocks that are really equal); in particular at least as many as any common run has. Not much more holds: for all k and m there are texts with an alignment of k runs of m lines of which the diff leaves only m+1 lines unchanged, so the diff is not the smallest one in general.", "quantifier": "all pairs of sequences, all alignments, both builds", "why_tests_cant": "the smallest diff is not known to a test; the bad inputs form a family of growing size", "anchors": ["pw_diff_lib/src/changes.rs:140-324"]}
{"id": "C117", "title": "pw_patch changes names, never existing files", "statement": "On file systems where a file may have several names (hard links) and has permissions: whatever the patch file is, whichever operation fails and wherever the process is killed, pw_patch changes neither the content nor the permissions of a file that existed before; it only makes new files and changes what names refer to, and of the names only the one given in the patch and the unused one of the temporary file. For the contents seen under the names this is the behaviour of the simpler file-system model, so what is proved there holds here.", "quantifier": "all patch files, all file systems with hard and symbolic links, all fault and crash schedules, both builds", "why_tests_cant": "crash points, fault schedules and link structures are not reached by tests", "anchors": ["pw_patch/src/main.rs:25-245"]}
{"id": "C118", "title": "A file is patched under all its names", "statement": "If pw_patch reports success for a diff that changes a file, the change can be seen under every name of that file. (False: the name in the patch then refers to a new file. All other names refer to the old one, unchanged; a symbolic link is replaced by a plain file and the file it led to stays as it was.)", "quantifier": "all diffs that change a file, all file systems with hard and symbolic links, all fault schedules, both builds", "why_tests_cant": "tests use files with one name", "anchors": ["pw_patch/src/main.rs:69-98,165-194"]}
{"id": "C119", "title": "A patched file keeps its permissions", "statement": "If pw_patch reports success for a diff that changes a file, the file has the permissions it had before. (False: it has those of a new temporary file, so they are kept exactly if they were these; a created file gets those of a new file.)", "quantifier": "all diffs, all permissions, all fault schedules, both builds", "why_tests_cant": "tests do not look at permissions", "anchors": ["pw_patch/src/main.rs:69-98,111-121,165-194"]}
{"id": "C120", "title": "How many lines a diff can miss", "statement": "What a patch makes of its own source has the right number of lines, less than half of which are wrong (at most k of 2k+1). That many can be: for every k there are texts of 2k+1 lines, k of which differ, for which the diff is empty whatever the context, so that pw_diff writes the same as for equal files and ends with exit status 0.", "quantifier": "all pairs of files, all contexts, both builds; all k", "why_tests_cant": "the worst inputs form a family of growing size; the bound is about all inputs", "anchors": ["pw_diff_lib/src/changes.rs:140-324"]}
{"id": "C121", "title": "Which changes a patch can express", "statement": "There is a patch that makes the content new of a file with content old exactly if old is not empty or new is UTF-8; there is one that can also be reverted exactly if both or none are empty or both are UTF-8. Every text can be turned into every other one and back by one clump without context, applied cleanly. So for every target path and every wanted content there is a patch file with which pw_patch makes just this of the (nonempty) file.", "quantifier": "all contents, both builds, both directions, all file systems without failing operations", "why_tests_cant": "existence and nonexistence of a patch are about all patches; a test shows one", "anchors": ["pw_diff_lib/src/apply_text.rs:15-235", "pw_diff_lib/src/apply_bytes.rs:1-72", "pw_patch/src/main.rs Diff::ByteChange arm"]}
{"id": "C122", "title": "A clump that failed fails again", "statement": "If clumps of a patch could not be applied to a text, they can as little be applied when the patch is applied once more, to the result. (False: the old lines now stand between the markers of the conflict, where the second run finds them. Proved: a patch of one clump of whole lines that has failed never fails on its own result; it is applied there, and with at most one line of context there is no panic either.)", "quantifier": "all clumps, all texts, both builds", "why_tests_cant": "a test has one clump and one text; the search must find the lines wherever they were expected", "anchors": ["pw_diff_lib/src/apply_text.rs:15-235"]}
{"id": "C123", "title": "pw_patch changes only files below its directory", "statement": "pw_patch, run in some directory, changes no file outside it. (False: the path in the patch is used as it stands, so that ../x or an absolute path works. Proved: whatever operation fails, only the file named in the patch and the temporary file change, so it is true of patches whose path does not lead out.)", "quantifier": "all patches, file systems and failing operations", "why_tests_cant": "a test runs one patch in one directory", "anchors": ["pw_patch/src/main.rs Diff::TextChange arm"]}
{"id": "C124", "title": "data.rs and sequence.rs agree", "statement": "The older data.rs, which is no longer compiled, and sequence.rs, which replaced it, do the same with every history of write_into_upto, advance_consumed_by and write_remainder in which sequence.rs does not panic: they write the same to every writer and end alike. data.rs itself panics in no history (short of an overflow of the count); what it writes and answers is described for every call.", "quantifier": "all histories of calls, sequences, writers (also failing ones), both builds", "why_tests_cant": "an equivalence of two implementations over all histories; the older one has no tests left that are compiled", "anchors": ["pw_diff_lib/src/data.rs:119-164", "pw_diff_lib/src/data.rs:254-333", "pw_diff_lib/src/sequence.rs:150-260"]}
{"id": "C125", "title": "The programs end", "statement": "pw_patch and pw_diff end, whatever the patch file and the other files are (also hand-made patches with any line numbers), whichever operations fail: no search goes on for ever, in either build. Ending is not ending soon: a patch of two lines with the line number 2^63 makes the release build try about 2^63 positions in a file of one line.", "quantifier": "all patches and files of less than 2^62 bytes, both directions and builds, all faults", "why_tests_cant": "termination for all line numbers of the type, including the ones where the arithmetic wraps around; the slow case cannot be waited for", "anchors": ["pw_diff_lib/src/apply_text.rs:149-192", "pw_diff_lib/src/apply_text.rs:20-31", "pw_patch/src/main.rs:1-245", "pw_diff/src/main.rs:1-54"]}
{"id": "C126", "title": "A patch and a file that have nothing in common", "statement": "If a file shares no line with a text patch (for instance because its line ends were converted to CR LF), none of the clumps with an old and a new side is applied or taken for applied: all of them are written as conflicts before the text, the text itself is kept whole, and pw_patch still ends with status 0. A byte patch that shares no byte with the file leaves it as it is. An insertion without context, however, is made in any file long enough.", "quantifier": "all patches and files without common lines, both builds (a debug build may panic if the file is shorter than what a clump changes)", "why_tests_cant": "holds for every number and shape of clumps and every amount of fuzz", "anchors": ["pw_diff_lib/src/apply_text.rs:15-235", "pw_diff_lib/src/apply_bytes.rs:1-72", "pw_patch/src/main.rs:1-245"]}
{"id": "C127", "title": "Comparing and patching again and again", "statement": "If a file is compared with another one and patched, and this is repeated, the file stops changing after finitely many rounds (at most 2 to the number of lines of the other file). It is then the other file, or differs from it only by lines that the comparison steps over (the exact condition of C16); the latter does happen. There is no bound on the number of rounds that works for all files, however much context the patches have. A round changes nothing only if the rounds are over; a round on a file with the right number of lines makes the first line it changes right, though it may make a later one wrong. The same holds for files that are not text (with context, and a first file that is not empty), also if the file becomes text on the way, and for repeated runs of pw_diff and pw_patch, which change nothing but that file.", "quantifier": "all files with at most 2^63/24 lines (what a vector of strings can hold), all amounts of context, both builds", "why_tests_cant": "termination of an iteration whose number of wrong lines can grow between the steps, for all files; the families of files with arbitrarily many rounds", "anchors": ["pw_diff_lib/src/changes.rs:115-330", "pw_diff_lib/src/changes.rs:468-563", "pw_diff_lib/src/apply_text.rs:15-235"]}
{"id": "C128", "title": "A long common passage separates the files", "statement": "If two files have a passage in common and no other passage of that length (nor a longer one), and do not agree in the second line behind it, comparing the files amounts to comparing what comes before the passage and, on its own, what comes after it: the list of changes is put together from the two lists, the clumps are those of the two comparisons (the ones next to the passage being joined if it is shorter than twice the context), and what the patch makes of the first file is what the two patches make of its parts, with the passage between them. So what is found on one side does not depend on what stands on the other side. For a common passage that is not the longest one this is false, and so it is if the second lines behind it agree (the search steps over the first one).", "quantifier": "all pairs of files with such a passage, both builds, all amounts of context", "why_tests_cant": "independence of the parts is a statement about all possible other parts, and about a recursion over regions of both files", "anchors": ["pw_diff_lib/src/changes.rs:140-255", "pw_diff_lib/src/changes.rs:280-324", "pw_diff_lib/src/changes.rs:468-563"]}
{"id": "C129", "title": "A patch can be applied piece by piece", "statement": "A patch may be cut into pieces. Applied one after the other to the file it was made for, beginning with the last piece, each of them is applied cleanly, and in the end the text is the one that the whole patch gives; the same holds for byte patches. Any choice of the clumps of a patch applies cleanly to that file, replacing the old lines of these clumps and no others. In the natural order, with the first piece first, it is not so: the first piece moves the lines that the second one is meant for, and if similar lines stand at the old place, they are changed instead. If no clump changes the number of lines, the clumps can be applied one at a time in whatever order.", "quantifier": "all pairs of files, all ways of cutting the patch, both builds, all amounts of context", "why_tests_cant": "a statement about all ways of cutting and all orders; the failure in the natural order needs repeated lines at the right distance", "anchors": ["pw_diff_lib/src/apply_text.rs", "pw_diff_lib/src/apply_bytes.rs", "pw_diff_lib/src/changes.rs:468-563"]}
{"id": "C130", "title": "Text added at an end is never lost", "statement": "If text is added at the end of a text file (be it whole lines, or something at the end of its last line, or only the newline that was missing), or in front, or taken away at the end, then pw_diff and pw_patch carry the change over exactly and pw_patch --reverse takes it back, whatever the file contains and however its lines repeat themselves. More generally, if two files have a passage in common that leaves at most one line of the shorter file, the change list says of no line that it is unchanged if it is not, and the patch leads from each file to the other. Two lines would be too many. So in the middle of a file lines can be put in without being carried over: if a new line is put in the middle of twelve equal lines, the patch adds another one of those at the end instead.", "quantifier": "all files, all texts added, both builds, all amounts of context", "why_tests_cant": "all files with all kinds of repetitions; whether a line is lost depends on the longest repetitions in both files", "anchors": ["pw_diff_lib/src/changes.rs:140-255", "pw_diff/src/main.rs", "pw_patch/src/main.rs"]}
{"id": "C131", "title": "Converting the line endings", "statement": "If every newline of a text without carriage returns is replaced by carriage return and newline, the diff replaces every line by its converted form, in one change (all but a last line without newline, which stays and is recognised as unchanged), and pw_diff and pw_patch carry the conversion over exactly; pw_patch --reverse takes it back. If some lines had the new line ending before, this is not so: if only one line in the middle is to be converted, no difference is found.", "quantifier": "all texts without carriage returns, both builds, all amounts of context", "why_tests_cant": "all texts, with all repetitions of lines", "anchors": ["pw_diff_lib/src/changes.rs:140-324", "pw_diff_lib/src/sequence.rs", "pw_diff/src/main.rs", "pw_patch/src/main.rs"]}
{"id": "C132", "title": "Moving and copying a passage", "statement": "If no line of the first file occurs twice and the second file differs from it by one passage having been moved to another place, or copied to another place, pw_diff and pw_patch carry this over exactly, and pw_patch --reverse takes it back. When two neighbouring passages change places, everything around them and the longer one of the two is kept; the other one is recorded as removed and added (if they are equally long, the one that comes first in the new file is kept). An arbitrary rearrangement of the lines is not carried over: when the second and the fourth of five different lines change places, no difference is found; of four lines one gets lost and another is doubled.", "quantifier": "all files without repeated lines, all passages and places, both builds, all amounts of context", "why_tests_cant": "all files and all ways of moving and copying", "anchors": ["pw_diff_lib/src/changes.rs:140-324", "pw_diff_lib/src/sequence.rs", "pw_diff/src/main.rs", "pw_patch/src/main.rs"]}
{"id": "C133", "title": "More context is more cautious", "statement": "If a text patch made with more context applies to some file (not only the one it was made for) with every clump clean, then the patch made from the same two files with less context does so too. Every line of the two results is the same, or (with more context) the line of the second file; if no single differing pair of lines stands between two equal pairs, the results are the same. The converse is false: with more context there may be lines that differ.", "quantifier": "all pairs of files, all amounts of context, all files the patches are applied to, both builds", "why_tests_cant": "all files and all clumps, which are different ones for each amount of context", "anchors": ["pw_diff_lib/src/changes.rs:140-210", "pw_diff_lib/src/changes.rs:468-552", "pw_diff_lib/src/apply_text.rs:213-351"]}
{"id": "C134", "title": "Deleting and inserting lines", "statement": "If any lines are deleted from a file without repeated lines, the diff records deletions only, the right ones, and the patch carries the file over and back; likewise for insertions that give a file without repeated lines. With repeated lines this is false: if a line x stands after m and before k equal lines and is deleted, then the patch deletes it, unless 2 <= k <= m and the patch has less than k lines of context; then x stays and one of the equal lines is deleted in its place, with every clump reported as applied cleanly.", "quantifier": "all files, all sets of deleted or inserted lines, all m, k and amounts of context, both builds", "why_tests_cant": "all files and all positions of the lines deleted; all m, k and amounts of context", "anchors": ["pw_diff_lib/src/changes.rs:140-324", "pw_diff_lib/src/sequence.rs", "pw_diff/src/main.rs", "pw_patch/src/main.rs", "pw_diff_lib/src/apply_text.rs:213-351"]}
{"id": "C135", "title": "Lines replaced in place: exactly which are lost", "statement": "Two files of the same number of lines, in which no line of the one equals a line of the other at another place. Going from the first line to the last, a replaced line is taken as unchanged if and only if the equal lines that follow it, up to the next replaced line, are at least one and no more than those just before it, where the latter count as one line if the replaced line before them was taken as unchanged. A line of the patched file is the line of the new file if a line recorded as replaced is within the context, otherwise the line of the old file. In particular, of single lines replaced at equal distances (two or more equal lines between) every second one is lost, and none is lost if the distances grow.", "quantifier": "all such pairs of files, all amounts of context, both builds", "why_tests_cant": "all files and all sets of replaced lines; which of them are lost depends on all distances before", "anchors": ["pw_diff_lib/src/changes.rs:140-324", "pw_diff/src/main.rs", "pw_patch/src/main.rs"]}
{"id": "C136", "title": "Common lines unique and in order: exactly which changes are found", "statement": "Write two files side by side as columns: equal lines, and edits (some lines of the one for some lines of the other, possibly none on one side), where the equal lines are the only pairs of equal lines of the two files. Then the change list is known exactly: equal lines are always taken as unchanged, and an edit is (wrongly) taken as unchanged if and only if it replaces one line by one line and the equal lines that follow it up to the next edit are at least one and no more than those just before it, where the latter count as one if the edit before them was taken as unchanged. All changes are found if and only if after each line replaced by one line there is no equal line up to the next edit, or there are more than just before it; in particular insertions, deletions and replacements of several lines are never lost. If all are found the patch makes the new file of the old one with any context, and without context only then.", "quantifier": "all files of the described kind, any number and kind of edits, both builds", "why_tests_cant": "all files and all sets of edits; whether one edit is lost depends on the distances to all the others", "anchors": ["pw_diff_lib/src/changes.rs:140-324", "pw_diff/src/main.rs", "pw_patch/src/main.rs"]}
{"id": "C137", "title": "A file changed between the clumps of a patch", "statement": "A generated patch is applied to a file that consists of the old lines of the clumps, in order, and of any lines before, between and after them (so lines may have been added, deleted or replaced everywhere else), and no clump, even without some of its context, fits at another place; it is enough that every clump changes a line that is in the file only once. Then all clumps are applied, the result being the same file with the old lines of each clump replaced by its new lines, and the clumps that moved against the one before counted as fuzzy, if and only if each clump that moved down stands before the limit of the search for it, which is computed from the place where the next clump is expected. If lines were only deleted or replaced there is no limit. The same holds, with old and new exchanged, when the patch is applied in reverse.", "quantifier": "all files and all generated patches, any number of clumps, any amount of context, both builds", "why_tests_cant": "all files of this kind; every clump shifts the places where the later ones are looked for", "anchors": ["pw_diff_lib/src/apply_text.rs", "pw_patch/src/main.rs"]}
{"id": "C138", "title": "Applying a patch again to a file that was changed since", "statement": "A generated patch is applied to a file that consists of the new lines of its clumps, in order, and of any lines before, between and after them; the new lines of no clump fit at another place, and the old lines of no clump fit anywhere (it is enough that every clump adds a line that is in the file only once and removes a line that is not in it). Then all clumps are counted as already applied, those that moved as fuzzy, and the file is copied unchanged, if and only if each clump that moved down stands before the limit of the search for it and, in a debug build, the computation of the limit of the search for the old lines does not underflow. The program then exits with status 0 and changes nothing.", "quantifier": "all files and all generated patches, any number of clumps, any amount of context, both builds", "why_tests_cant": "all files of this kind; every clump shifts the places where the later ones are looked for", "anchors": ["pw_diff_lib/src/apply_text.rs", "pw_patch/src/main.rs"]}
{"id": "C139", "title": "A file to which a part of a patch was applied before", "statement": "A generated patch is applied to a file that has, in order, the new lines of some of its clumps and the old lines of the others, and any lines before, between and after them. The lines of each clump that are there fit nowhere else, and the lines of its other side fit nowhere (it is enough that, apart from context, one of the former is in the file only once and one of the latter is not in it). Then the clumps that were applied are counted as already applied, the others are applied (those that moved, against the one before, count as fuzzy), and the result has the new lines of all clumps and is otherwise the same file, if and only if each clump that moved down stands before the limit of the search for it and, in a debug build, the computation of no limit underflows. The limit matters even if nothing else was changed: where the first of three clumps was applied and added lines the second may not be found.", "quantifier": "all files and all generated patches, any number of clumps, any choice of those applied before, any amount of context, both builds", "why_tests_cant": "all choices of the clumps applied before and all files of this kind; the searches for old and new lines use the same offset", "anchors": ["pw_diff_lib/src/apply_text.rs", "pw_patch/src/main.rs"]}
{"id": "C140", "title": "A patch applied to its own conflicts", "statement": "A generated patch of whole lines is applied to a text and all its clumps fail; each removes a line that is not in the text and only once in the patch. The result is the text with the conflicts of all clumps before it. Applied once more, the patch is applied to the old lines inside its own conflicts: no clump counts as failed, the new lines stand twice in every conflict, and the markers and the text are kept, if and only if each conflict that stands further down than expected, counting from the one before, stands before the limit of the search. pw_patch then ends with status 0 both times.", "quantifier": "all texts and all generated patches, any number of clumps, any amount of context, both builds", "why_tests_cant": "all patches and all texts on which they fail; the second run reads what the first has written", "anchors": ["pw_diff_lib/src/apply_text.rs", "pw_patch/src/main.rs"]}
{"id": "C141", "title": "Where the conflicts of a patch are written", "statement": "A generated patch is applied to a file that has the old lines of some of its clumps, in order, with any lines before, between and after them; they fit nowhere else, and neither the old nor the new lines of the other clumps fit anywhere (it is enough that each clump that is there removes a line that is in the file only once, and each other one removes a line and adds a line that are not in it). Then the former are applied (those that moved, against the one found before, count as fuzzy) and all others fail; each of them is written as a conflict directly after the new lines of the last clump applied before it, not where its lines were, and all other lines of the file are kept. This is so if and only if each clump that is there, and further down than expected, stands before the limit of the search and, in a debug build, no limit underflows for a clump that is not there. The exit status of the program is 0.", "quantifier": "all files and all generated patches, any number of clumps, any choice of those that are there, any amount of context, both builds", "why_tests_cant": "all choices of the clumps that fail and all files of this kind", "anchors": ["pw_diff_lib/src/apply_text.rs", "pw_patch/src/main.rs"]}
{"id": "C142", "title": "A patch of which some clumps have failed, applied again", "statement": "A generated patch of whole lines was applied to a file as in C141: some clumps were applied and the others have failed. In the result each clump that was applied is recognised by a line it added that is there only once and by one it removed that is not there, each other one by a line it removes that is only in its conflict, and all stand before the limits of the searches. Then the patch can be applied again and no clump fails: exactly those that were applied are counted as already applied, and the others are applied to the old lines in their own conflicts, so that the conflicts remain and have the new lines on both sides. All other lines are kept.", "quantifier": "all files and all generated patches, any number of clumps, any choice of those that have failed, any amount of context; release builds", "why_tests_cant": "all choices of the clumps that fail; the second run reads what the first has written", "anchors": ["pw_diff_lib/src/apply_text.rs"]}
{"id": "C143", "title": "A patch of which some clumps have failed, taken back", "statement": "A generated patch of whole lines was applied to a file as in C141: some clumps were applied and the others have failed. Each clump has added a line that is in the result only once (for those that have failed, in its conflict). Then the patch can be taken back with no failure if and only if the new lines of every clump that are further down than expected stand before the limit of the search, and what comes out is not the file that was patched: the clumps that were applied are taken back, the others are taken back from the new lines in their own conflicts, and the conflicts stay in the file, with the old lines on both sides.", "quantifier": "all files and all generated patches, any number of clumps, any choice of those that have failed, any amount of context; the first run is that of a release build", "why_tests_cant": "all choices of the clumps that fail; the second run reads what the first has written, in the other direction", "anchors": ["pw_diff_lib/src/apply_text.rs"]}
{"id": "C144", "title": "A patch taken back from a file in which only some of its clumps were applied", "statement": "A generated patch is taken back from a file that has, in order, the new lines of some of its clumps and the old lines of the others, with any lines between them; what is there of each clump fits nowhere else, and its other side fits nowhere. Then the clumps that were applied are taken back, the others are counted as taken back already, none fails and the result has the old lines of all clumps and all other lines as they were, if and only if every clump that is further down than expected stands before the limit of the search (and, in debug builds, no limit underflows). Whenever no clump fails the result is that. The condition is the one for applying the rest of the patch (C139), and the counts are the same with the two kinds exchanged.", "quantifier": "all generated patches, all choices of the clumps that were applied, any lines between them, any amount of context, both builds", "why_tests_cant": "all choices of applied clumps and all lines between them", "anchors": ["pw_diff_lib/src/apply_text.rs"]}
{"id": "C145", "title": "Two patches in either order", "statement": "Two generated patches, made from whatever files, are applied to a file in which the old lines of the clumps of both are, in any order and with any lines between them. A patch of which no clump fits anywhere else replaces exactly the old lines of its clumps, whether the other one was applied before or not, if and only if each of its clumps that is further down than expected stands before the limit of the search. If every clump changes a line that is in the file only once, and stands before that limit, whether the other patch was applied or not, both patches can be applied in either order, no clump fails, both runs of pw_patch end with exit status 0, and the same file comes out.", "quantifier": "all pairs of generated patches, any order of their clumps in the file, any lines between them, any amounts of context, both builds", "why_tests_cant": "all pairs of patches, all interleavings of their clumps and both orders", "anchors": ["pw_diff_lib/src/apply_text.rs"]}
{"id": "C146", "title": "Taking back one of two patches", "statement": "In a file are the new lines of the clumps of two generated patches, made from whatever files, in any order and with any lines between them. A patch of which the new lines of no clump fit anywhere else can be taken back, giving the same file with the old lines of its clumps and with those of the other patch unchanged, if and only if each of its clumps that is further down than expected stands before the limit of the search; this is so whether the other patch is applied or not. If every clump has added a line that is in the file only once, and stands before that limit, whether the other patch is applied or not, then taking back the patch that was applied first leaves exactly what applying the second alone would have left, and taking back the second too leaves everything as it was.", "quantifier": "all pairs of generated patches, any order of their clumps in the file, any lines between them, any amounts of context, both builds", "why_tests_cant": "all pairs of patches, all interleavings of their clumps and both orders", "anchors": ["pw_diff_lib/src/apply_text.rs"]}
{"id": "C147", "title": "Merging two versions by patches, either way", "statement": "Two patches are generated from the same file, one to my version of it and one to theirs, and no clump of the one touches a clump of the other. Then there is one merged text: whichever of the patches has its clumps recognisable in the other version (each changes a line that is there once, and stands before the limit of the search), applying it to that version makes the merged text, no clump failing. The limit is no condition if no clump of the other patch adds lines. So if no clump of either adds lines and no line alone between two unchanged ones was replaced, applying my patch to their version and their patch to my version makes the same file, and both runs of pw_patch end with exit status 0. If clumps may add lines, the two may come out different.", "quantifier": "all files and all pairs of versions of them, any amounts of context, both builds", "why_tests_cant": "all pairs of versions of all files", "anchors": ["pw_diff_lib/src/apply_text.rs"]}
{"id": "C148", "title": "Where the conflicts are written when a patch is taken back", "statement": "A generated patch is taken back from a file that has the new lines of some of its clumps, in order, with any lines before, between and after them; they fit nowhere else, and neither the new nor the old lines of the other clumps fit anywhere (it is enough that each clump that is there has added a line that is in the file only once, and that a line each other one added and a line it removed are not in it). Then the old lines of the former are put back (those that moved, against the one found before, count as fuzzy) and all others fail; each of them is written as a conflict, with its new lines first and its old lines second, directly after the last lines put back before it, not where its lines were, and all other lines of the file are kept. This is so if and only if each clump that is there, and further down than expected, stands before the limit of the search and, in a debug build, no limit underflows for a clump that is not there. The exit status of the program is 0.", "quantifier": "all files and all generated patches, any number of clumps, any choice of those that are there, any amount of context, both builds", "why_tests_cant": "all choices of the clumps that fail and all files of this kind", "anchors": ["pw_diff_lib/src/apply_text.rs"]}
{"id": "C149", "title": "Taking one side out of a merge", "statement": "Two versions of a file are merged by patches as in C147: the clumps of the two patches do not touch each other, none adds more lines than it removes, no line alone between two unchanged ones was replaced, each clump removes a line that is in the other version once, and adds a line that is in the two versions, together, once more often than in the common file. Then my patch can be taken back from the merged file, which leaves exactly their version, and their patch can be, which leaves exactly mine; no clump fails. Every line is in the merged file as often as in the two versions together less as often as in the common file. For pw_patch, if all lines end with a line feed: the runs end with exit status 0, and taking my patch back leaves everything as it was. It is not so of any patch that can be applied to their version without a clump failing: if they had made the change themselves, taking the patch back takes back what they did.", "quantifier": "all files and all pairs of versions of them, any amounts of context, both builds", "why_tests_cant": "all pairs of versions of all files", "anchors": ["pw_diff_lib/src/apply_text.rs"]}
{"id": "C150", "title": "What could be applied to a changed file can be taken back", "statement": "A generated patch and a file in which the old lines of its clumps are, in order, with any lines before, between and after them, and fit nowhere else; in the file with the new lines in their place, the new lines fit nowhere else either. Then applying the patch to the former makes the latter if and only if taking it back from the latter makes the former, and as many clumps count as fuzzy both times. So if each clump removes a line that is in the file once and adds one that is in the result once, and the patch could be applied (no clump failed or was found applied already), it can be taken back and the file is as it was before; the two builds may be mixed, and pw_patch ends with exit status 0 both times. Two patches that can be applied in either order (C145) can, if the lines they added are recognised, be taken back in either order too. If the new lines were in the file before, this is not so.", "quantifier": "all files and all generated patches, any number of clumps, any amount of context, both builds", "why_tests_cant": "all files of this kind and all patches", "anchors": ["pw_diff_lib/src/apply_text.rs"]}
{"id": "C151", "title": "Any number of patches can be applied in any order", "statement": "Any number of generated patches, made from whatever files, and a file in which the old lines of the clumps of all of them are, mixed in any way and with any lines before, between and after them. Call an order one in which the patches can be recognised if, when the turn of each comes, every clump of it removes a line that is then in the file only once, and stands before the limit of the search if it is further down than expected. In every such order no clump fails and none is found to be applied already, and the same file comes out: that with the new lines of all the patches in the place of the old ones. For pw_patch: all runs end with exit status 0, and the file is left like that and everything else as it was.", "quantifier": "all files, any number of patches, all orders, any number of clumps, any amount of context, both builds", "why_tests_cant": "all orders of any number of patches", "anchors": ["pw_diff_lib/src/apply_text.rs"]}
{"id": "C152", "title": "Patches applied and taken back in any order", "statement": "The patches and the file of C151. They are applied and taken back in any order, any of them any number of times, each being applied only when it is not and taken back only when it is. Provided that every clump of the patch whose turn it is replaces a line that is then in the file only once, and that in the file without the patch the clump stands before the limit of the search if it is further down than expected (the same condition for both directions), no clump ever fails or is found to be applied already, and the file is always that with the old lines of the patches that are then applied replaced, whatever came before. So a patch need not be taken back in the opposite of the order in which they were applied, and if those applied at the end are those applied at the beginning the file is as it was. For pw_patch: all runs end with exit status 0, and everything else is as it was.", "quantifier": "all files, any number of patches, all sequences of runs, any number of clumps, any amount of context, both builds", "why_tests_cant": "all sequences of runs", "anchors": ["pw_diff_lib/src/apply_text.rs"]}
{"id": "C153", "title": "Patches of one clump each", "statement": "Any number of generated patches with one clump each, which has at least one line of context, made from whatever files, and a file in which the old lines of all the clumps are, with any lines before, between and after them. Each clump removes a line and adds a line that are nowhere else in the file nor among the lines of the patches. Then, without any further condition, the patches can be applied and taken back in every order, any number of times, each being applied only when it is not and taken back only when it is: no clump ever fails or is found to be applied already, and the file depends only on which patches are applied. For pw_patch: all runs end with exit status 0, and everything else is as it was. Without context this is not so: a clump at the end of a file that has become longer is not found.", "quantifier": "all files, any number of patches, all sequences of runs, both builds", "why_tests_cant": "all sequences of runs", "anchors": ["pw_diff_lib/src/apply_text.rs"]}
{"id": "C154", "title": "Byte patches that replace bytes in place", "statement": "A byte patch whose clumps follow each other and each replace bytes by as many at the same place, and any file whatever. Applying the patch always succeeds and leaves a file of the same length in which exactly the bytes of those clumps are replaced whose old bytes are there, and all others are as they were (in general a byte patch can lose bytes, see C84). Applied again it changes nothing. Two such patches that do not touch the same bytes give the same in either order. Taking the patch back after it was applied gives the file that was there before if and only if no clump had its new bytes there already and not the old ones. For pw_patch: all runs end with exit status 0, and two such patches leave the same in either order.", "quantifier": "all files, all such patches, both builds", "why_tests_cant": "all files, including those the patch was not made for", "anchors": ["pw_diff_lib/src/apply_bytes.rs"]}
{"id": "C155", "title": "What a byte patch that replaces bytes in place gives", "statement": "A byte patch as in C154, and any file whatever. The file is left as it is if and only if every clump whose old bytes are there has the same bytes as new ones. If the patch makes b of a and all its old bytes are in a, then it makes b of exactly those files that are as long as a, have the bytes of a wherever no clump is, and have at the place of each clump the old bytes or the new ones. For pw_patch: with a patch none of whose clumps is found the run ends with exit status 0 and everything is as it was, so that the exit status does not show that nothing was done.", "quantifier": "all files, all such patches, both builds", "why_tests_cant": "all files, including those the patch was not made for", "anchors": ["pw_diff_lib/src/apply_bytes.rs"]}
{"id": "C156", "title": "Byte patches that replace bytes in place, in any order", "statement": "Any number of byte patches as in C154 no two of which touch the same byte, and any file whatever. In whatever order they are applied, all succeed, the length of the file stays the same, and the result is the same. For pw_patch: all runs end with exit status 0 and leave the same, whatever the order. This does not hold of patches that touch the same byte (refuted by the patches from 1 to 2 and from 2 to 3).", "quantifier": "all files, all lists of such patches and all their permutations, both builds", "why_tests_cant": "all orders of any number of patches", "anchors": ["pw_diff_lib/src/apply_bytes.rs"]}
{"id": "C157", "title": "Generated byte patches that replace bytes in place", "statement": "A byte patch made of two files, each clump of which has as many new bytes as old ones. Then the files have the same length, and the clumps follow each other and replace bytes in place, so that C154, C155 and C156 hold of the patch with no further condition but that on the size. With context, and a patch that makes the new file of the old one (as it does if no single differing pair of bytes stands between two equal pairs): the files of which it makes the new one are exactly those that are like the old one wherever no clump is and have at the place of each clump the old bytes or the new ones. Two files of the same length need not give such a patch (refuted by bytes that were moved).", "quantifier": "all files, all contexts up to 255, both builds", "why_tests_cant": "all pairs of files, and all files the patch is applied to", "anchors": ["pw_diff_lib/src/apply_bytes.rs", "pw_diff_lib/src/byte_diff.rs"]}
{"id": "C158", "title": "Byte patches that replace bytes in place, applied and taken back in any order", "statement": "Any number of byte patches as in C154 no two of which touch the same byte, and any file in which no clump of them has its new bytes and not the old ones (the patches need not fit otherwise). Applied in any order and then all taken back in any order, they all succeed and give the file that was there. For pw_patch: all runs end with exit status 0 and in the end everything is as it was. The condition is needed: what was there before the patch was applied is taken back too (refuted).", "quantifier": "all such files, all lists of such patches and all their permutations, both builds", "why_tests_cant": "all orders of any number of patches", "anchors": ["pw_diff_lib/src/apply_bytes.rs"]}
{"id": "C159", "title": "Byte patches that replace bytes in place, and other changes of the file", "statement": "A byte patch as in C154, and any file whatever. What the patch does at the place of one of its clumps depends on nothing but the bytes there (and the length of the file). If bytes that are in no clump are changed, any number of them, it does not matter whether this is done before the patch is applied or afterwards. The second does not hold of all generated byte patches (refuted by one that adds a byte).", "quantifier": "all files, all such patches, all changes of bytes that are in no clump, both builds", "why_tests_cant": "all files and all series of changes", "anchors": ["pw_diff_lib/src/apply_bytes.rs"]}
