{
 "claims": [
  {
   "property": "C01",
   "status": "proved",
   "theorems": [
    "C01_read_write",
    "C01_from_write",
    "C01_bytes"
   ],
   "note": ""
  },
  {
   "property": "C02",
   "status": "proved",
   "theorems": [
    "C02_lines"
   ],
   "note": ""
  },
  {
   "property": "C03",
   "status": "proved",
   "theorems": [
    "C03_utf8"
   ],
   "note": ""
  },
  {
   "property": "C04",
   "status": "proved",
   "theorems": [
    "C04_string",
    "C04_bytes",
    "C04_unique"
   ],
   "note": ""
  },
  {
   "property": "C05",
   "status": "proved",
   "theorems": [
    "C05_has_subsequence_at"
   ],
   "note": ""
  },
  {
   "property": "C06",
   "status": "proved",
   "theorems": [
    "C06_write_into",
    "C06_write_into_all_from"
   ],
   "note": ""
  },
  {
   "property": "C07",
   "status": "proved",
   "theorems": [
    "C07_consumable",
    "C07_copy"
   ],
   "note": "sequence length below 2^64"
  },
  {
   "property": "C08",
   "status": "proved",
   "theorems": [
    "C08_search"
   ],
   "note": ""
  },
  {
   "property": "C09",
   "status": "proved",
   "theorems": [
    "C09_maximal"
   ],
   "note": ""
  },
  {
   "property": "C10",
   "status": "partial",
   "theorems": [
    "C10_refuted",
    "C10_shape_partial",
    "C10_noIsland_partial"
   ],
   "note": "the property is false of the code (forward extension in changes.rs:193-206 steps over one pair); refuted on a concrete input, exact shape of the reported block proved, and the property proved for inputs without such a pattern"
  },
  {
   "property": "C11",
   "status": "proved",
   "theorems": [
    "C11_total"
   ],
   "note": ""
  },
  {
   "property": "C12",
   "status": "proved",
   "theorems": [
    "C12_tiles"
   ],
   "note": ""
  },
  {
   "property": "C13",
   "status": "proved",
   "theorems": [
    "C13_normal"
   ],
   "note": ""
  },
  {
   "property": "C14",
   "status": "partial",
   "theorems": [
    "C14_refuted",
    "C14_replay_iff_partial",
    "C14_noIsland_partial"
   ],
   "note": "false of the code (consequence of C10); refuted, characterised and proved under the NoIsland condition"
  },
  {
   "property": "C15",
   "status": "proved",
   "theorems": [
    "C15_changes",
    "C15_no_clumps"
   ],
   "note": ""
  },
  {
   "property": "C16",
   "status": "partial",
   "theorems": [
    "C16_refuted",
    "C16_partial",
    "C16_single",
    "C16_exact",
    "C16_one"
   ],
   "note": "false of the code; proved: exactly when a diff is empty (C16_exact), for files that differ in one line C16_one; equal lengths, identity under the NoIsland condition, and in general that of two items in a row at least one agrees, as do the first and the last (C16_single)"
  },
  {
   "property": "C17",
   "status": "proved",
   "theorems": [
    "C17_disjoint"
   ],
   "note": ""
  },
  {
   "property": "C18",
   "status": "proved",
   "theorems": [
    "C18_sort_schedule"
   ],
   "note": ""
  },
  {
   "property": "C19",
   "status": "proved",
   "theorems": [
    "C19_clumps"
   ],
   "note": ""
  },
  {
   "property": "C20",
   "status": "proved",
   "theorems": [
    "C20_synced",
    "C20_inner"
   ],
   "note": ""
  },
  {
   "property": "C21",
   "status": "proved",
   "theorems": [
    "C21_context"
   ],
   "note": ""
  },
  {
   "property": "C22",
   "status": "proved",
   "theorems": [
    "C22_slices"
   ],
   "note": ""
  },
  {
   "property": "C23",
   "status": "partial",
   "theorems": [
    "C23_refuted",
    "C23_partial",
    "C23_exact"
   ],
   "note": "false of the code (before_end of a clump looks at its first change); proved for the starts and for clumps of one change, and exactly when it holds for a clump of a diff (C23_exact)"
  },
  {
   "property": "C24",
   "status": "partial",
   "theorems": [
    "C24_refuted",
    "C24_partial"
   ],
   "note": "false of the code (consequence of C10); proved: clean, same number of lines, equal to the target exactly if the stretches left out are equal, in particular under NoIsland"
  },
  {
   "property": "C25",
   "status": "partial",
   "theorems": [
    "C25_refuted",
    "C25_partial"
   ],
   "note": "as C24, in reverse"
  },
  {
   "property": "C26",
   "status": "proved",
   "theorems": [
    "C26_clean"
   ],
   "note": "files of at most 2^63/24 lines (the most a Vec<String> can hold)"
  },
  {
   "property": "C27",
   "status": "proved",
   "theorems": [
    "C27_empty",
    "C27_bytes"
   ],
   "note": ""
  },
  {
   "property": "C28",
   "status": "proved",
   "theorems": [
    "C28_statistics"
   ],
   "note": ""
  },
  {
   "property": "C29",
   "status": "proved",
   "theorems": [
    "C29_willApply"
   ],
   "note": "sizes below 2^60, offsets within 2^62"
  },
  {
   "property": "C30",
   "status": "proved",
   "theorems": [
    "C30_fuzz"
   ],
   "note": "sizes below 2^60, offsets within 2^62"
  },
  {
   "property": "C31",
   "status": "proved",
   "theorems": [
    "C31_nearby"
   ],
   "note": "sizes below 2^60; the only other outcome is the debug-build panic on underflow of the search limit, characterised exactly"
  },
  {
   "property": "C32",
   "status": "proved",
   "theorems": [
    "C32_reverse",
    "C32_bytes"
   ],
   "note": ""
  },
  {
   "property": "C33",
   "status": "proved",
   "theorems": [
    "C33_already"
   ],
   "note": ""
  },
  {
   "property": "C34",
   "status": "partial",
   "theorems": [
    "C34_refuted",
    "C34_partial",
    "C34_exact",
    "C34_program"
   ],
   "note": "false of the code; proved when the old lines are found nowhere in the target, and exactly when it holds (C34_exact)"
  },
  {
   "property": "C35",
   "status": "partial",
   "theorems": [
    "C35_refuted",
    "C35_partial",
    "C35_panics"
   ],
   "note": "false of the code (file coordinates index the snippet); exact behaviour proved"
  },
  {
   "property": "C36",
   "status": "partial",
   "theorems": [
    "C36_refuted",
    "C36_partial",
    "C36_exact"
   ],
   "note": "false in debug builds for short files (underflow panic); proved in release builds; in debug builds exactly when the limits do not underflow"
  },
  {
   "property": "C37",
   "status": "proved",
   "theorems": [
    "C37_writer",
    "C37_bytes"
   ],
   "note": ""
  },
  {
   "property": "C38",
   "status": "partial",
   "theorems": [
    "C38_refuted",
    "C38_partial",
    "C38_exact"
   ],
   "note": "false of the code (the search for a clump stops at the undisplaced place of the next); proved when the displaced place is before the search limit, and exactly when it holds (C38_exact)"
  },
  {
   "property": "C39",
   "status": "partial",
   "theorems": [
    "C39_refuted",
    "C39_partial",
    "C39_context",
    "C39_contextRefuted"
   ],
   "note": "false of the code in both build profiles; proved: always ends, and succeeds under stated conditions"
  },
  {
   "property": "C57",
   "status": "proved",
   "theorems": [
    "C57_refines"
   ],
   "note": "sizes below 2^60"
  },
  {
   "property": "C58",
   "status": "proved",
   "theorems": [
    "C58_surrounded"
   ],
   "note": ""
  },
  {
   "property": "C56",
   "status": "proved",
   "theorems": [
    "C56_replace_disjoint"
   ],
   "note": ""
  },
  {
   "property": "C40",
   "status": "partial",
   "theorems": [
    "C40_refuted",
    "C40_partial",
    "C40_reverse_partial",
    "C40_empty"
   ],
   "note": "false of the code; proved with context at least 1 and a nonempty file: success, right length, equal to the target exactly if the stretches left out are equal, in particular under NoIsland; on an empty file every byte patch does nothing"
  },
  {
   "property": "C41",
   "status": "partial",
   "theorems": [
    "C41_refuted",
    "C41_partial"
   ],
   "note": "false of the code (a clump at the end of the file is not recognised); exact condition proved"
  },
  {
   "property": "C42",
   "status": "proved",
   "theorems": [
    "C42_skipped"
   ],
   "note": ""
  },
  {
   "property": "C59",
   "status": "proved",
   "theorems": [
    "C59_stretches"
   ],
   "note": ""
  },
  {
   "property": "C60",
   "status": "proved",
   "theorems": [
    "C60_refines"
   ],
   "note": ""
  },
  {
   "property": "C43",
   "status": "proved",
   "theorems": [
    "C43_variant"
   ],
   "note": "when no operation fails"
  },
  {
   "property": "C44",
   "status": "proved",
   "theorems": [
    "C44_lines",
    "C44_bytes",
    "C44_changePath"
   ],
   "note": "whatever operations fail"
  },
  {
   "property": "C45",
   "status": "proved",
   "theorems": [
    "C45_roundTrip",
    "C45_fails"
   ],
   "note": "at the level of the bytes of the JSON text; values within their Rust types"
  },
  {
   "property": "C46",
   "status": "proved",
   "theorems": [
    "C46_atomic",
    "C46_normal",
    "C46_unreadable"
   ],
   "note": "for every schedule of failing operations and every point at which the process is killed; power failures are not modelled"
  },
  {
   "property": "C47",
   "status": "partial",
   "theorems": [
    "C47_create",
    "C47_delete",
    "C47_normal",
    "C47_refuted",
    "C47_undo_partial",
    "C47_exact"
   ],
   "note": "all parts proved except that reverse undoes forward, which is false of the code (a file is removed whatever it contains); C47_exact says exactly when the state is restored"
  },
  {
   "property": "C48",
   "status": "partial",
   "theorems": [
    "C48_refuted",
    "C48_refuted_change",
    "C48_partial"
   ],
   "note": "false of the code (failed clumps and failed creations still exit with 0); proved: what exit status 0 does mean"
  },
  {
   "property": "C49",
   "status": "partial",
   "theorems": [
    "C49_refuted",
    "C49_text_partial",
    "C49_bytes_partial",
    "C49_add",
    "C49_remove"
   ],
   "note": "false of the code for changes (consequence of C10); proved under the NoIsland condition, and for added and removed files without it"
  },
  {
   "property": "C61",
   "status": "proved",
   "theorems": [
    "C61_readOnly",
    "C61_status"
   ],
   "note": ""
  },
  {
   "property": "C62",
   "status": "partial",
   "theorems": [
    "C62_refuted",
    "C62_partial"
   ],
   "note": "false of the code (errors of the final flush are ignored); proved: everything but the closing brace was written"
  },
  {
   "property": "C50",
   "status": "proved",
   "theorems": [
    "C50_roundTrip"
   ],
   "note": ""
  },
  {
   "property": "C51",
   "status": "proved",
   "theorems": [
    "C51_counts",
    "C51_wellFormed",
    "C51_exact_refuted"
   ],
   "note": "exact counts on both sides without the condition are refuted (C51_exact_refuted)"
  },
  {
   "property": "C52",
   "status": "partial",
   "theorems": [
    "C52_strips_refuted",
    "C52_partial"
   ],
   "note": "false of the code (the markers are kept); what is stored is proved"
  },
  {
   "property": "C53",
   "status": "partial",
   "theorems": [
    "C53_refuted",
    "C53_partial"
   ],
   "note": "false of the code for the new side (consequence of C10); all the rest proved, the new side under the NoIsland condition"
  },
  {
   "property": "C54",
   "status": "partial",
   "theorems": [
    "C54_release",
    "C54_debug_partial",
    "C54_debug_refuted",
    "C54_noNewline_refuted"
   ],
   "note": "proved in release builds; in debug builds for contexts up to 128 (sharp); false without final newline"
  },
  {
   "property": "C55",
   "status": "proved",
   "theorems": [
    "C55_total",
    "C55_written",
    "C55_exact"
   ],
   "note": "C55_exact: which lines are header lines, and what is read from them"
  },
  {
   "property": "C63",
   "status": "partial",
   "theorems": [
    "C63_described",
    "C63_neverPanics_refuted",
    "C63_release",
    "C63_debug"
   ],
   "note": "the description is proved; that it never panics is false of the code, the exact conditions are proved"
  },
  {
   "property": "C64",
   "status": "proved",
   "theorems": [
    "C64_headers",
    "C64_whiteSpace"
   ],
   "note": ""
  },
  {
   "property": "C65",
   "status": "partial",
   "theorems": [
    "C65_oneBased_refuted",
    "C65_zeroBased_partial"
   ],
   "note": "false of the code (counts from 0); what the header says is proved"
  },
  {
   "property": "C66",
   "status": "proved",
   "theorems": [
    "C66_lines"
   ],
   "note": ""
  },
  {
   "property": "C67",
   "status": "proved",
   "theorems": [
    "C67_markInside"
   ],
   "note": ""
  },
  {
   "property": "C68",
   "status": "partial",
   "theorems": [
    "C68_removedFirst_refuted",
    "C68_order_partial"
   ],
   "note": "false of the code; the exact order is proved"
  },
  {
   "property": "C69",
   "status": "proved",
   "theorems": [
    "C69_search"
   ],
   "note": ""
  },
  {
   "property": "C70",
   "status": "proved",
   "theorems": [
    "C70_changes",
    "C70_blocks"
   ],
   "note": ""
  },
  {
   "property": "C71",
   "status": "proved",
   "theorems": [
    "C71_minimal",
    "C71_island_needed"
   ],
   "note": "C71_island_needed shows that the second hypothesis cannot be dropped"
  },
  {
   "property": "C72",
   "status": "proved",
   "theorems": [
    "C72_core"
   ],
   "note": ""
  },
  {
   "property": "C73",
   "status": "proved",
   "theorems": [
    "C73_lost",
    "C73_found",
    "C73_noClumps"
   ],
   "note": "the property describes the defect exactly"
  },
  {
   "property": "C74",
   "status": "proved",
   "theorems": [
    "C74_truncated",
    "C74_patch",
    "C74_output"
   ],
   "note": ""
  },
  {
   "property": "C75",
   "status": "partial",
   "theorems": [
    "C75_refuted",
    "C75_partial"
   ],
   "note": "the kind is wrong if an error occurs while the existence of a file is determined; everything recorded is proved to be right"
  },
  {
   "property": "C76",
   "status": "proved",
   "theorems": [
    "C76_undo",
    "C76_redo"
   ],
   "note": ""
  },
  {
   "property": "C77",
   "status": "proved",
   "theorems": [
    "C77_undo_bytes",
    "C77_context_needed"
   ],
   "note": "C77_context_needed shows that the hypothesis on the context cannot be dropped"
  },
  {
   "property": "C78",
   "status": "proved",
   "theorems": [
    "C78_session",
    "C78_session_bytes"
   ],
   "note": ""
  },
  {
   "property": "C79",
   "status": "partial",
   "theorems": [
    "C79_refuted",
    "C79_partial",
    "C79_generated",
    "C79_inOrder",
    "C79_shorter"
   ],
   "note": "false of the code if a clump counts as already applied (lines of the file are dropped silently); proved for all well-formed patches in order when none does, outside of the defect of C35; and whatever counts as already applied for patches whose new lines end before the old ones of the next clump begin (C79_inOrder), as in patches that never put in more lines than they take out (C79_shorter)"
  },
  {
   "property": "C80",
   "status": "proved",
   "theorems": [
    "C80_edit",
    "C80_session"
   ],
   "note": ""
  },
  {
   "property": "C81",
   "status": "proved",
   "theorems": [
    "C81_lost",
    "C81_asEqual"
   ],
   "note": "the property describes the defect of C73 at the level of the programs"
  },
  {
   "property": "C82",
   "status": "partial",
   "theorems": [
    "C82_answer",
    "C82_present",
    "C82_refuted"
   ],
   "note": "the exact answer is proved; that a yes excludes failing clumps is false"
  },
  {
   "property": "C83",
   "status": "proved",
   "theorems": [
    "C83_clean",
    "C83_bytes"
   ],
   "note": ""
  },
  {
   "property": "C84",
   "status": "partial",
   "theorems": [
    "C84_refuted",
    "C84_partial",
    "C84_shorter"
   ],
   "note": "false in general; proved if no clump is taken for already applied, and for patches that never put in more bytes than they take out (C84_shorter)"
  },
  {
   "property": "C85",
   "status": "proved",
   "theorems": [
    "C85_appended",
    "C85_several"
   ],
   "note": ""
  },
  {
   "property": "C86",
   "status": "proved",
   "theorems": [
    "C86_normal",
    "C86_ends"
   ],
   "note": "for diffs with absurd sizes it is not shown that the search ends"
  },
  {
   "property": "C87",
   "status": "partial",
   "theorems": [
    "C87_refuted",
    "C87_left",
    "C87_partial"
   ],
   "note": "false as stated; the possible leftovers are described"
  },
  {
   "property": "C88",
   "status": "proved",
   "theorems": [
    "C88_language",
    "C88_unambiguous",
    "C88_rewritten",
    "C88_refused"
   ],
   "note": "inside the values of unknown fields serde_json also accepts text that is not UTF-8 and unpaired surrogates; the model refuses those files"
  },
  {
   "property": "C89",
   "status": "proved",
   "theorems": [
    "C89_language",
    "C89_text",
    "C89_bytes",
    "C89_disjoint",
    "C89_textNotBytes",
    "C89_bytesAsText",
    "C89_error"
   ],
   "note": ""
  },
  {
   "property": "C90",
   "status": "proved",
   "theorems": [
    "C90_clump",
    "C90_change",
    "C90_hunk"
   ],
   "note": ""
  },
  {
   "property": "C91",
   "status": "partial",
   "theorems": [
    "C91_refuted",
    "C91_unbounded",
    "C91_rounds",
    "C91_generated_partial"
   ],
   "note": "False of the code: the number of rounds grows with the start recorded in the patch file (C91_unbounded: a two-line patch and a one-line file, any number of rounds below 2^59). The exact number of rounds is proved, and a linear bound for the clumps of generated patches."
  },
  {
   "property": "C92",
   "status": "partial",
   "theorems": [
    "C92_partial",
    "C92_refuted",
    "C92_bytes"
   ],
   "note": "False of the code: where lines repeat, the clumps of the later patch are applied, as clean, to the wrong lines once the earlier patch has moved them (C92_refuted). Proved: the earlier patch is never disturbed by the later one; the later one gives the same text if the earlier one keeps the number of lines, or if the nearby search finds nothing nearer than the moved place."
  },
  {
   "property": "C93",
   "status": "partial",
   "theorems": [
    "C93_partial",
    "C93_refuted",
    "C93_reports",
    "C93_failure",
    "C93_verbosity",
    "C93_verbose_partial",
    "C93_diff",
    "C93_normal",
    "C93_same"
   ],
   "note": "False of the code: a clump that cannot be applied is reported by the library only, whose messages pw_patch never shows, and the exit status is 0 (C93_refuted). Proved for every schedule of faults: exit status 1 always shows exactly one error and there is no other failing status than 101 (panic); exit status 0 without an error shown means that the target was replaced by the complete output of apply_into, created with the recorded content, or removed; with -vv one message is shown, it is true, and unless it is an error or shows a failed clump the change was made. pw_diff always shows an error when it fails."
  },
  {
   "property": "C94",
   "status": "proved",
   "theorems": [
    "C94_apply",
    "C94_already",
    "C94_byteAlready"
   ],
   "note": ""
  },
  {
   "property": "C95",
   "status": "proved",
   "theorems": [
    "C95_text",
    "C95_bytes"
   ],
   "note": ""
  },
  {
   "property": "C96",
   "status": "proved",
   "theorems": [
    "C96_range",
    "C96_run",
    "C96_grow",
    "C96_trim",
    "C96_snippet",
    "C96_write"
   ],
   "note": ""
  },
  {
   "property": "C97",
   "status": "partial",
   "theorems": [
    "C97_partial",
    "C97_refuted",
    "C97_reverse",
    "C97_bytes",
    "C97_single",
    "C97_singleReverse",
    "C97_context",
    "C97_same"
   ],
   "note": "False of the code: what a patch makes of its own source depends on the number of context lines it was made with (C97_refuted), because edits that the diff misses are carried over exactly if they are near enough to a recorded one. Proved: the output line by line, for every pair of files and every context (also in reverse, and for bytes); wrong lines are single ones, never the first or last; more context never loses more; if no pair is missed the context does not matter."
  },
  {
   "property": "C98",
   "status": "partial",
   "theorems": [
    "C98_partial",
    "C98_refuted",
    "C98_unified",
    "C98_bytes",
    "C98_diff",
    "C98_unifiedDiff",
    "C98_pwDiff",
    "C98_pwPatch"
   ],
   "note": "False of the code: on a file with fewer lines than the patch removes the debug build panics where the release build reports a failed clump (C98_refuted). Proved: the debug build panics or does the same as the release build, for every patch, file and writer, for hunks of unified diffs, and for pw_patch with every schedule of faults that does not kill it; byte patches, diffs and pw_diff are the same in both builds without exception."
  },
  {
   "property": "C99",
   "status": "proved",
   "theorems": [
    "C99_stretches",
    "C99_count",
    "C99_context",
    "C99_unified"
   ],
   "note": ""
  },
  {
   "property": "C100",
   "status": "partial",
   "theorems": [
    "C100_refuted",
    "C100_pieces",
    "C100_partial",
    "C100_files",
    "C100_own",
    "C100_unified"
   ],
   "note": "false of the code: a last line without newline is joined with what follows (C100_refuted); proved: what is written consists of lines of the file, of the patch and markers, and the claim if all lines are ended or the patch is applied to its source"
  },
  {
   "property": "C101",
   "status": "proved",
   "theorems": [
    "C101_changes",
    "C101_clumps",
    "C101_map",
    "C101_patch",
    "C101_bytes",
    "C101_already",
    "C101_unified"
   ],
   "note": ""
  },
  {
   "property": "C102",
   "status": "partial",
   "theorems": [
    "C102_refuted",
    "C102_alike",
    "C102_already",
    "C102_reads",
    "C102_partial",
    "C102_source",
    "C102_marked"
   ],
   "note": "false of the code: the lines of hunks keep their markers and are not found (C102_refuted, C102_marked); proved: hunks patch like clumps with the same lines, and the claim when the markers are taken away"
  },
  {
   "property": "C103",
   "status": "proved",
   "theorems": [
    "C103_atomic",
    "C103_exit",
    "C103_alone",
    "C103_add"
   ],
   "note": ""
  },
  {
   "property": "C104",
   "status": "partial",
   "theorems": [
    "C104_refuted",
    "C104_lost",
    "C104_partial"
   ],
   "note": "false of the code: nothing keeps another run from replacing the file between reading it and replacing it (C104_lost, C104_refuted); proved for runs that do not overlap"
  },
  {
   "property": "C105",
   "status": "proved",
   "theorems": [
    "C105_text",
    "C105_bytes",
    "C105_unified"
   ],
   "note": ""
  },
  {
   "property": "C106",
   "status": "partial",
   "theorems": [
    "C106_refuted",
    "C106_partial",
    "C106_size",
    "C106_written"
   ],
   "note": "false of the code for patch files without field names (C106_refuted); proved for patch files as pw_diff writes them (C106_written), and with 12/11 of the size of the patch file for all (C106_partial)"
  },
  {
   "property": "C107",
   "status": "proved",
   "theorems": [
    "C107_made",
    "C107_undisturbed",
    "C107_patched"
   ],
   "note": ""
  },
  {
   "property": "C108",
   "status": "partial",
   "theorems": [
    "C108_refuted",
    "C108_mixed",
    "C108_partial"
   ],
   "note": "false of the code: the files are read one after the other (C108_mixed, C108_refuted); proved if only one of the two files is being changed"
  },
  {
   "property": "C109",
   "status": "proved",
   "theorems": [
    "C109_text",
    "C109_written",
    "C109_sides",
    "C109_pwDiff"
   ],
   "note": ""
  },
  {
   "property": "C110",
   "status": "partial",
   "theorems": [
    "C110_refuted",
    "C110_partial",
    "C110_inOrder",
    "C110_empty",
    "C110_changes",
    "C110_reverse",
    "C110_reverseBytes"
   ],
   "note": "false of the code: two lines that have changed places (C110_refuted); proved if the longest common runs taken are the first ones in both files, in particular for common lines in the same order, and for empty diffs without condition"
  },
  {
   "property": "C111",
   "status": "proved",
   "theorems": [
    "C111_language",
    "C111_help",
    "C111_refused",
    "C111_unambiguous",
    "C111_all",
    "C111_programs",
    "C111_order",
    "C111_dash"
   ],
   "note": "about clap's behaviour as written down in Model/CommandLine"
  },
  {
   "property": "C112",
   "status": "proved",
   "theorems": [
    "C112_diff",
    "C112_patch",
    "C112_status",
    "C112_readOnly",
    "C112_verbose",
    "C112_session",
    "C112_size"
   ],
   "note": "about clap's behaviour as written down in Model/CommandLine"
  },
  {
   "property": "C113",
   "status": "proved",
   "theorems": [
    "C113_create",
    "C113_kept",
    "C113_complete",
    "C113_delete",
    "C113_deleted"
   ],
   "note": "no file is both added by one run and removed by another"
  },
  {
   "property": "C114",
   "status": "proved",
   "theorems": [
    "C114_back",
    "C114_last",
    "C114_forth"
   ],
   "note": "when no operation fails; for files that are not text with context and without empty versions (C40)"
  },
  {
   "property": "C115",
   "status": "proved",
   "theorems": [
    "C115_bound",
    "C115_distinct",
    "C115_cubic",
    "C115_slow",
    "C115_refuted",
    "C115_same",
    "C115_comparisons"
   ],
   "note": "C115_refuted: a quadratic bound does not hold; sorting, making the index and merging are not counted"
  },
  {
   "property": "C116",
   "status": "proved",
   "theorems": [
    "C116_bound",
    "C116_run",
    "C116_sharp",
    "C116_refuted"
   ],
   "note": "C116_refuted: the diff is not the smallest one in general"
  },
  {
   "property": "C117",
   "status": "proved",
   "theorems": [
    "C117_same",
    "C117_files",
    "C117_names"
   ],
   "note": "on a file system with hard links and permissions"
  },
  {
   "property": "C118",
   "status": "partial",
   "theorems": [
    "C118_refuted",
    "C118_partial",
    "C118_apart",
    "C118_link"
   ],
   "note": "the full statement C118_statement is false of the code (C118_refuted); C118_partial says what happens instead"
  },
  {
   "property": "C119",
   "status": "partial",
   "theorems": [
    "C119_refuted",
    "C119_partial",
    "C119_exact",
    "C119_created"
   ],
   "note": "the full statement C119_statement is false of the code (C119_refuted); C119_exact says when it holds"
  },
  {
   "property": "C120",
   "status": "proved",
   "theorems": [
    "C120_bound",
    "C120_sharp",
    "C120_program"
   ],
   "note": "a bound on the defect of C10, and that it is reached"
  },
  {
   "property": "C121",
   "status": "proved",
   "theorems": [
    "C121_text",
    "C121_bytes",
    "C121_exact",
    "C121_both",
    "C121_program"
   ],
   "note": "sizes below 2^60"
  },
  {
   "property": "C122",
   "status": "partial",
   "theorems": [
    "C122_partial",
    "C122_refuted"
   ],
   "note": "the property is false of the code; proved is that a single failed clump does not fail on the result. For patches of several clumps see C140 (all have failed) and C142 (some have)"
  },
  {
   "property": "C123",
   "status": "partial",
   "theorems": [
    "C123_partial",
    "C123_refuted"
   ],
   "note": "the property is false of the code; it is proved for patches whose path does not lead out of the directory"
  },
  {
   "property": "C124",
   "status": "proved",
   "theorems": [
    "C124_upto",
    "C124_remainder",
    "C124_same",
    "C124_noPanic",
    "C124_allFrom",
    "C124_new"
   ],
   "note": "about data.rs, which is not compiled"
  },
  {
   "property": "C125",
   "status": "proved",
   "theorems": [
    "C125_text",
    "C125_unified",
    "C125_already",
    "C125_bytes",
    "C125_patch",
    "C125_diff",
    "C125_normal",
    "C125_long"
   ],
   "note": ""
  },
  {
   "property": "C126",
   "status": "proved",
   "theorems": [
    "C126_text",
    "C126_lineEnds",
    "C126_bytes",
    "C126_program"
   ],
   "note": ""
  },
  {
   "property": "C127",
   "status": "proved",
   "theorems": [
    "C127_end",
    "C127_exact",
    "C127_next",
    "C127_stuck",
    "C127_refuted",
    "C127_rounds",
    "C127_files",
    "C127_program",
    "C127_emptyFile"
   ],
   "note": "For files that are not both text the context is at least 1 and the first file not empty (C127_emptyFile: it would stay empty). That the rounds always end with the other file (C127_always) is false: C127_refuted. The bound on the number of rounds is not claimed to be the best one."
  },
  {
   "property": "C128",
   "status": "proved",
   "theorems": [
    "C128_changes",
    "C128_local",
    "C128_clumps",
    "C128_patched",
    "C128_refuted",
    "C128_step_needed"
   ],
   "note": "Without the conditions the statement (C128_statement) is false: C128_refuted, C128_step_needed."
  },
  {
   "property": "C129",
   "status": "proved",
   "theorems": [
    "C129_pieces",
    "C129_anyOrder",
    "C129_choice",
    "C129_bytes",
    "C129_refuted"
   ],
   "note": "With the first piece first (C129_statement) it is false: C129_refuted."
  },
  {
   "property": "C130",
   "status": "proved",
   "theorems": [
    "C130_append",
    "C130_truncate",
    "C130_prepend",
    "C130_passage",
    "C130_changes",
    "C130_bytes",
    "C130_sharp",
    "C130_refuted"
   ],
   "note": "For lines put in anywhere (C130_statement) it is false: C130_refuted."
  },
  {
   "property": "C131",
   "status": "proved",
   "theorems": [
    "C131_changes",
    "C131_session",
    "C131_refuted"
   ],
   "note": "For texts with mixed line endings (C131_statement) it is false: C131_refuted."
  },
  {
   "property": "C132",
   "status": "proved",
   "theorems": [
    "C132_changes",
    "C132_session",
    "C132_refuted",
    "C132_lost",
    "C132_nodup_needed"
   ],
   "note": "For arbitrary rearrangements (C132_statement) it is false: C132_refuted, C132_lost; nor can repeated lines be allowed: C132_nodup_needed."
  },
  {
   "property": "C133",
   "status": "proved",
   "theorems": [
    "C133_cautious",
    "C133_result",
    "C133_refuted"
   ],
   "note": "The converse (C133_statement) is false: C133_refuted."
  },
  {
   "property": "C134",
   "status": "proved",
   "theorems": [
    "C134_deleted",
    "C134_inserted",
    "C134_session",
    "C134_among",
    "C134_exact",
    "C134_refuted"
   ],
   "note": "That lines can be deleted from any file (C134_statement) is false: C134_refuted; C134_exact says when, for one line among equal lines."
  },
  {
   "property": "C135",
   "status": "proved",
   "theorems": [
    "C135_changes",
    "C135_result",
    "C135_spaced",
    "C135_growing",
    "C135_session",
    "C135_refuted"
   ],
   "note": "That replaced lines are always carried over (C135_statement) is false: C135_refuted."
  },
  {
   "property": "C136",
   "status": "proved",
   "theorems": [
    "C136_changes",
    "C136_found",
    "C136_several",
    "C136_result",
    "C136_carried",
    "C136_session",
    "C136_refuted"
   ],
   "note": "That all changes are always carried over (C136_statement) is false: C136_refuted. C136_found says exactly when they are."
  },
  {
   "property": "C137",
   "status": "proved",
   "theorems": [
    "C137_exact",
    "C137_once",
    "C137_shorter",
    "C137_reverse",
    "C137_program",
    "C137_refuted"
   ],
   "note": "That the clumps are always found (C137_statement) is false: C137_refuted. C137_exact says exactly when they are."
  },
  {
   "property": "C138",
   "status": "proved",
   "theorems": [
    "C138_exact",
    "C138_once",
    "C138_program",
    "C138_refuted"
   ],
   "note": "That such a file is always left alone (C138_statement) is false: C138_refuted, a conflict is written. C138_exact says exactly when it is. C138_once and C138_program are for release builds."
  },
  {
   "property": "C139",
   "status": "proved",
   "theorems": [
    "C139_exact",
    "C139_found",
    "C139_once",
    "C139_program",
    "C139_refuted"
   ],
   "note": "That the rest of the patch is always applied when nothing else was changed (C139_statement) is false: C139_refuted. C139_exact says exactly when it is. C139_once and C139_program are for release builds."
  },
  {
   "property": "C140",
   "status": "proved",
   "theorems": [
    "C140_exact",
    "C140_program"
   ],
   "note": "Extends C122_partial to patches of several clumps all of which have failed."
  },
  {
   "property": "C141",
   "status": "proved",
   "theorems": [
    "C141_exact",
    "C141_once",
    "C141_program",
    "C141_refuted"
   ],
   "note": "That a conflict is written where the old lines were (C141_statement) is false: C141_refuted. C141_exact says where it is written. C141_once and C141_program are for release builds."
  },
  {
   "property": "C142",
   "status": "proved",
   "theorems": [
    "C142_again",
    "C142_program",
    "C139_found"
   ],
   "note": ""
  },
  {
   "property": "C143",
   "status": "proved",
   "theorems": [
    "C143_exact",
    "C143_program",
    "C143_refuted"
   ],
   "note": "That a patch which is applied and then taken back without a failure leaves the file as it was (C143_statement) is false if a clump has failed in the first run: C143_refuted. C143_exact says what the file is then."
  },
  {
   "property": "C144",
   "status": "proved",
   "theorems": [
    "C144_exact",
    "C144_both",
    "C144_program",
    "C144_refuted"
   ],
   "note": "That the condition always holds if nothing but the patch was changed (C144_statement) is false: C144_refuted. C144_both and C144_program are for release builds."
  },
  {
   "property": "C145",
   "status": "proved",
   "theorems": [
    "C145_exact",
    "C145_either",
    "C145_program",
    "C145_refuted"
   ],
   "note": "That the limit of the search cannot get in the way of the second patch if both can be applied to the file itself (C145_statement) is false: C145_refuted."
  },
  {
   "property": "C146",
   "status": "proved",
   "theorems": [
    "C146_exact",
    "C146_either",
    "C146_program"
   ],
   "note": ""
  },
  {
   "property": "C147",
   "status": "proved",
   "theorems": [
    "C147_merge",
    "C147_symmetric",
    "C147_program",
    "C147_refuted"
   ],
   "note": "C147_refuted shows that the condition that no clump adds lines cannot be left out of C147_symmetric."
  },
  {
   "property": "C148",
   "status": "proved",
   "theorems": [
    "C148_exact",
    "C148_once",
    "C148_program"
   ],
   "note": ""
  },
  {
   "property": "C149",
   "status": "proved",
   "theorems": [
    "C149_unmerge",
    "C149_program",
    "C149_refuted"
   ],
   "note": "C149_refuted is about the second part, a patch that was found to be applied already."
  },
  {
   "property": "C150",
   "status": "proved",
   "theorems": [
    "C150_exact",
    "C150_once",
    "C150_two",
    "C150_program",
    "C150_refuted"
   ],
   "note": "C150_refuted is about the last sentence."
  },
  {
   "property": "C151",
   "status": "proved",
   "theorems": [
    "C151_in_turn",
    "C151_any_order",
    "C151_program"
   ],
   "note": "LocatedInTurn is the condition on the order."
  },
  {
   "property": "C152",
   "status": "proved",
   "theorems": [
    "C152_runs",
    "C152_restores",
    "C152_program"
   ],
   "note": "LocatedRuns is the condition on the order."
  },
  {
   "property": "C153",
   "status": "proved",
   "theorems": [
    "C153_any",
    "C153_program",
    "C153_refuted"
   ],
   "note": "C153_refuted is about the last sentence."
  },
  {
   "property": "C154",
   "status": "proved",
   "theorems": [
    "C154_exact",
    "C154_again",
    "C154_either",
    "C154_back",
    "C154_program"
   ],
   "note": "The patch need not be a generated one."
  },
  {
   "property": "C155",
   "status": "proved",
   "theorems": [
    "C155_nothing",
    "C155_whole",
    "C155_program"
   ],
   "note": "The patch need not be a generated one."
  },
  {
   "property": "C156",
   "status": "proved",
   "theorems": [
    "C156_order",
    "C156_program",
    "C156_refuted"
   ],
   "note": "The patches need not be generated ones; C156_refuted shows that the condition is needed."
  },
  {
   "property": "C157",
   "status": "proved",
   "theorems": [
    "C157_made",
    "C157_whole",
    "C157_sure",
    "C157_refuted"
   ],
   "note": "C157_refuted is about the last sentence."
  },
  {
   "property": "C158",
   "status": "proved",
   "theorems": [
    "C158_undone",
    "C158_program",
    "C158_refuted"
   ],
   "note": "C158_refuted is about the last sentence."
  },
  {
   "property": "C159",
   "status": "proved",
   "theorems": [
    "C159_local",
    "C159_edit",
    "C159_edits",
    "C159_refuted"
   ],
   "note": "C159_refuted is about the last sentence."
  }
 ]
}