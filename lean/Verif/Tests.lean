import Verif.Model.ApplyText
import Verif.Props.Unified
import Verif.Props.Clumps

/-! # The repository's own tests, run on the model

These are tests of the reading of the code, not proofs of anything general. -/

namespace PwDiff.Tests

/-- `Seq::<String>::from`. -/
abbrev seq (s : String) : List Str := fromText s.toList

/-- `Changes::new(..).change_clumps(2).map(TextChangeClump::from).collect()`. -/
def patchOf (before after : String) : List (DiffClump Str) :=
  match diffClumps .debug (seq before) (seq after) 2 with
  | .ok cs => cs
  | _ => []

/-- What `apply_into` reports and writes. -/
def applied (before after : String) (patchable : String) (reverse : Bool) : Outcome Statistics × List UInt8 :=
  (applyInto .debug (patchOf before after) (seq patchable) reverse).run

def text (s : String) : List UInt8 := bytesOf (seq s)

/-! ## range.rs:45-62 -/

example : (⟨3, 5⟩ : Range).start = 3 ∧ (⟨3, 5⟩ : Range).fin = 5 ∧ (⟨3, 5⟩ : Range).len = 2 := by decide
example : (⟨2, 3⟩ : Range).isValid = true ∧ (⟨3, 10⟩ : Range).isValidForMaxEnd 9 = false ∧
    (⟨3, 10⟩ : Range).isValidForMaxEnd 10 = true ∧ (⟨3, 10⟩ : Range).isValidForMaxEnd 11 = true := by decide

/-! ## The documentation tests of changes.rs -/

/-- changes.rs:130-139. -/
example : longestCommonSubsequence .debug (seq "A\nB\nC\nD\nE\nF\nG\nH\nI\nJ\n") (seq "X\nY\nZ\nC\nD\nE\nH\nI\nX\n")
    (Item.generateFrom (seq "A\nB\nC\nD\nE\nF\nG\nH\nI\nJ\n")) ⟨0, 10⟩ ⟨0, 9⟩ = .ok (some ⟨2, 3, 3⟩) := by decide +kernel

/-- changes.rs:260-279. -/
example : changesOf .debug (seq "A\nB\nC\nD\nE\nF\nG\nH\nI\nJ\nK\nL\nM\n") (seq "A\nC\nD\nEf\nFg\nG\nH\nI\nJ\nK\nH\nL\nM\n") =
    .ok [.noChange ⟨0, 0, 1⟩, .delete ⟨1, 2⟩ 1, .noChange ⟨2, 1, 2⟩, .replace ⟨4, 6⟩ ⟨3, 5⟩, .noChange ⟨6, 5, 5⟩,
      .insert 11 ⟨10, 11⟩, .noChange ⟨11, 11, 2⟩] := by decide +kernel

/-- changes.rs:515-553. -/
example : clumpsOf .debug (seq "A\nB\nC\nD\nE\nF\nG\nH\nI\nJ\nK\nL\nM\n") (seq "A\nC\nD\nEf\nFg\nG\nH\nI\nJ\nK\nH\nL\nM\n") 2 =
    .ok [⟨[.noChange ⟨0, 0, 1⟩, .delete ⟨1, 2⟩ 1, .noChange ⟨2, 1, 2⟩, .replace ⟨4, 6⟩ ⟨3, 5⟩, .noChange ⟨6, 5, 2⟩]⟩,
      ⟨[.noChange ⟨9, 8, 2⟩, .insert 11 ⟨10, 11⟩, .noChange ⟨11, 11, 2⟩]⟩] := by decide +kernel

/-! ## apply_text/apply_tests.rs -/

abbrev b1 := "A\nB\nC\nD\nE\nF\nG\nH\nI\nJ\nK\nL\nM\n"
abbrev a1 := "A\nC\nD\nEf\nFg\nG\nH\nI\nJ\nK\nH\nL\nM\n"
abbrev b2 := "a\nb\nc\nd\nA\nB\nC\nD\nE\nF\nG\nH\nI\nJ\nK\nL\nM\nx\ny\nz\n"
abbrev a2 := "a\nb\nc\nd\nA\nC\nD\nEf\nFg\nG\nH\nI\nJ\nK\nH\nL\nM\nx\ny\nz\n"
abbrev b3 := "A\nB\nC\nD\nE\nF\nG\nH\nI\nJ\nK\nL\nM\nx\ny\nz\n"
abbrev b4 := "a\nb\nc\nd\nA\nB\nC\nD\nE\nF\nG\nH\nI\nJ\nK\nL\nM\nx\ny\nz"
abbrev a5 := "a\nb\nc\nd\nA\nC\nD\nEf\nFg\nG\nH\nI\nJ\nK\nH\nL\nM\nx\ny\nz\na"
abbrev a6 := "a\nb\nc\nd\nA\nC\nD\nEf\nFg\nG\nH\nI\nJ\nK\nH\nL\nM\nx\ny\nz"

/-- `clean_patch`. -/
example : applied b1 a1 b1 false = (.ok { clean := 2 }, text a1) := by decide +kernel
/-- `clean_patch_in_middle`. -/
example : applied b2 a2 b2 false = (.ok { clean := 2 }, text a2) := by decide +kernel
/-- `already_fully_applied`. -/
example : applied b3 a2 a2 false = (.ok { alreadyApplied := 2 }, text a2) := by decide +kernel
/-- `clean_patch_reverse`. -/
example : applied b3 a2 a2 true = (.ok { clean := 2 }, text b3) := by decide +kernel
/-- `displaced`. -/
example : applied b2 a2 ("x\ny\nz\n" ++ b2) false = (.ok { clean := 1, fuzzy := 1 }, text ("x\ny\nz\n" ++ a2)) := by
  decide +kernel
/-- `displaced_no_final_eol_1`. -/
example : applied b4 a2 ("x\ny\nz\n" ++ b4) false = (.ok { clean := 2, fuzzy := 1 }, text ("x\ny\nz\n" ++ a2)) := by
  decide +kernel
/-- `displaced_no_final_eol_2`. -/
example : applied b2 a5 ("x\ny\nz\n" ++ b2) false = (.ok { clean := 2, fuzzy := 1 }, text ("x\ny\nz\n" ++ a5)) := by
  decide +kernel
/-- `displaced_no_final_eol_3`. -/
example : applied b2 a6 ("x\ny\nz\n" ++ b2) false = (.ok { clean := 2, fuzzy := 1 }, text ("x\ny\nz\n" ++ a6)) := by
  decide +kernel
/-- `already_applied`. -/
example : isAlreadyApplied .debug (patchOf b2 a6) (seq a6) false = .ok true ∧
    isAlreadyApplied .debug (patchOf b2 a6) (seq b2) false = .ok false ∧
    isAlreadyApplied .debug (patchOf b2 a6) (seq ("x\ny\nz\n" ++ a6)) false = .ok true := by decide +kernel

/-! ## diff/diff_tests.rs -/

/-- `diff_clump_applies`. -/
example : ∀ c ∈ patchOf b1 a1, willApply .debug c (seq b1) 0 false = .ok (some .cleanly) ∧
    willApply .debug c (seq b1) 0 true = .ok none ∧ willApply .debug c (seq a1) 0 false = .ok none ∧
    willApply .debug c (seq a1) 0 true = .ok (some .cleanly) ∧
    willApply .debug c (seq ("a\na\na\n" ++ b1)) 3 false = .ok (some .cleanly) := by decide +kernel
example : (patchOf b1 a1).map (fun c => willApply .debug c (seq "B\nC\nD\nE\nF\nG\nH\nI\nJ\nK\nL\nM\n") (-1) false) =
    [.ok (some (.withReductions (1, 1))), .ok (some .cleanly)] := by decide +kernel
example : ((patchOf b1 a1).head?.map fun c => (willApply .debug c (seq "B\nB\nC\nD\nE\nF\nG\nH\nI\nJ\nK\nL\nM\n") 0 false,
    willApply .debug c (seq "B\nC\nD\nEf\nFg\nG\nH\nI\nJ\nK\nH\nL\nM\n") 0 true)) =
    some (.ok (some (.withReductions (1, 1))), .ok (some (.withReductions (1, 1)))) := by decide +kernel

abbrev b7 := "A\nB\nC\nD\nE\nF\nG\nH\nI\nJ\nK\nL\nM\nO\nP\nQ\nR\nS\nT\n"
abbrev a7 := "A\nB\nC\nD\nE\nF\nG\nH\nI\nX\nY\nZ\n\nJ\nK\nL\nM\nO\nP\nQ\nR\nS\nT\n"
abbrev a8 := "A\nX\nB\nC\nD\nE\nF\nG\nH\nI\nX\nY\nZ\n\nJ\nK\nL\nM\nO\nP\nQ\nR\nS\nX\nY\nZ\nT\n"

/-- `find_compromise`. -/
example : ((patchOf b7 a7).head?.map fun c => (willApplyNearby .debug c ⟨seq b7, 2⟩ none 3 false,
    willApplyNearby .debug c ⟨seq b7, 2⟩ none (-3) false)) =
    some (.ok (some (-3, .cleanly)), .ok (some (3, .cleanly))) := by decide +kernel

/-- `find_compromise_edges`. -/
example : (patchOf b7 a8).length = 3 ∧
    ((patchOf b7 a8).head?.map fun c => willApplyNearby .debug c ⟨seq b7, 0⟩ (patchOf b7 a8)[1]? 3 false) =
      some (.ok (some (-3, .cleanly))) ∧
    ((patchOf b7 a8).getLast?.map fun c =>
      willApplyNearby .debug c ⟨seq "B\nC\nD\nE\nF\nG\nH\nI\nJ\nK\nL\nM\nO\nP\nQ\nR\nS\n", 8⟩ none (-3) false) =
      some (.ok (some (2, .withReductions (1, 1)))) := by decide +kernel

/-! ## pw_cub_diff_lib/src/unified_diff.rs:337-382 -/

def unifiedDiff : List Str := [
  "--- lao\t2002-02-21 23:30:39.942229878 -0800\n".toList,
  "+++ tzu\t2002-02-21 23:30:50.442260588 -0800\n".toList,
  "@@ -1,7 +1,6 @@\n".toList,
  "-The Way that can be told of is not the eternal Way;\n".toList,
  "-The name that can be named is not the eternal name.\n".toList,
  " The Nameless is the origin of Heaven and Earth;\n".toList,
  "-The Named is the mother of all things.\n".toList,
  "+The named is the mother of all things.\n".toList,
  "+\n".toList,
  " Therefore let there always be non-being,\n".toList,
  "   so we may see their subtlety,\n".toList,
  " And let there always be being,\n".toList,
  "@@ -9,3 +8,6 @@\n".toList,
  " The two are the same,\n".toList,
  " But after they are produced,\n".toList,
  "   they have different names.\n".toList,
  "+They both may be called deep and profound.\n".toList,
  "+Deeper and more profound,\n".toList,
  "+The door of all subtleties!\n".toList]

/-- Is there a clump at this line? -/
def found (lines : List Str) (i : Nat) : Option Bool :=
  match getFromAt .debug .asciiOnly lines i with
  | .ok (.ok r) => some r.isSome
  | _ => none

/-- `unified_diff_clump_parse_string`. -/
example : found unifiedDiff 2 = some true ∧ found unifiedDiff 1 = some false := by decide +kernel

/-- The beginning of test_diffs/test_1.diff. -/
def test1 : List Str := [
  "diff --git a/src/lib.rs b/src/lib.rs\n".toList,
  "index 6826c6c..a48404a 100644\n".toList,
  "--- a/src/lib.rs\n".toList,
  "+++ b/src/lib.rs\n".toList,
  "@@ -15,6 +15,7 @@\n".toList,
  " extern crate regex;\n".toList,
  " \n".toList,
  " pub mod abstract_diff;\n".toList,
  "+pub mod unified_diff;\n".toList,
  " pub mod lines;\n".toList,
  " pub mod text_diff;\n".toList,
  " \n".toList,
  "diff --git a/src/text_diff.rs b/src/text_diff.rs\n".toList,
  "index 9cf9459..d3bfed6 100644\n".toList,
  "--- a/src/text_diff.rs\n".toList,
  "+++ b/src/text_diff.rs\n".toList,
  "@@ -12,6 +12,7 @@\n".toList,
  " // See the License for the specific language governing permissions and\n".toList,
  " // limitations under the License.\n".toList,
  " \n".toList,
  "+use std::num::ParseIntError;\n".toList,
  " use std::path::PathBuf;\n".toList,
  " \n".toList,
  " use regex::Captures;\n".toList]

/-- `unified_diff_clump_parse_from_file`. -/
example : found test1 0 = some false ∧ found test1 14 = some false := by decide +kernel
/-- (Not in the repository: the clumps are at lines 4 and 16.) -/
example : found test1 4 = some true ∧ found test1 16 = some true := by decide +kernel

end PwDiff.Tests
