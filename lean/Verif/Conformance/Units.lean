import Verif.Stdx.Model
import Verif.Kinds.Model
import Verif.Disjoint.Model
import Verif.TestUtils.TagsModel
import Verif.TestUtils.AnnotationsModel
import Verif.Paths.Model
import Verif.FileSet.Model
import Verif.Vfs.Model

set_option autoImplicit false

/-!
Conformance check of the models, not part of any proof: the unit tests of the repository, on the models.
(The tests of the parser are in `Trees.lean`.  Not here: `test_basic_dove_toml_package`, which tests the crate
`toml`, and the two tests for Windows of `vfs_path.rs:240-260`.)
-/

namespace Verif.Conformance

/-! ### `stdx/src/lib.rs:195-226` -/

private def trims (a b : String) : Bool := Stdx.trimIndent a.toList == some b.toList

example : trims "" "" = true := by decide +kernel
example : trims "\n            hello\n            world\n" "hello\nworld\n" = true := by decide +kernel
example : trims "\n            hello\n            world" "hello\nworld" = true := by decide +kernel
example : trims "    hello\n    world\n" "hello\nworld\n" = true := by decide +kernel
example : trims "\n            fn main() {\n                return 92;\n            }\n        "
    "fn main() {\n    return 92;\n}\n" = true := by decide +kernel

/-! ### `ide_db/src/line_index/tests.rs` -/

open LineIndex in
private def at_ (text : String) (t : Nat × Nat × Nat) : Bool :=
  (new text.toList).lineCol t.1 == some ⟨t.2.1, t.2.2⟩

example : [(0, 0, 0), (1, 0, 1), (5, 0, 5), (6, 1, 0), (7, 1, 1), (8, 1, 2), (10, 1, 4), (11, 1, 5), (12, 1, 6)].all
    (at_ "hello\nworld") = true := by decide +kernel
example : [(0, 0, 0), (1, 1, 0), (2, 1, 1), (6, 1, 5), (7, 2, 0)].all (at_ "\nhello\nworld") = true := by decide +kernel

example : (LineIndex.new "\nconst C: char = 'x';\n".toList).utf16Lines = [] := by decide +kernel

private def single := LineIndex.new "\nconst C: char = 'メ';\n".toList

example : single.utf16Lines = [(1, [⟨17, 20⟩])] := by decide +kernel
example : single.utf8ToUtf16Col 1 15 = some 15 ∧ single.utf8ToUtf16Col 1 22 = some 20 := by decide +kernel
example : single.utf16ToUtf8Col 1 15 = 15 ∧ single.utf16ToUtf8Col 1 19 = 21 := by decide +kernel
example : (LineIndex.new "a𐐏b".toList).utf16ToUtf8Col 0 3 = 5 := by decide +kernel

private def double := LineIndex.new "\nconst C: char = \"メ メ\";\n".toList

example : double.utf16Lines = [(1, [⟨17, 20⟩, ⟨21, 24⟩])] := by decide +kernel
example : double.utf8ToUtf16Col 1 15 = some 15 ∧ double.utf8ToUtf16Col 1 21 = some 19 ∧
    double.utf8ToUtf16Col 1 25 = some 21 ∧ double.utf8ToUtf16Col 2 15 = some 15 := by decide +kernel
example : double.utf16ToUtf8Col 1 15 = 15 ∧ double.utf16ToUtf8Col 1 17 = 17 ∧ double.utf16ToUtf8Col 1 18 = 20 ∧
    double.utf16ToUtf8Col 1 19 = 21 ∧ double.utf16ToUtf8Col 2 15 = 15 := by decide +kernel

example : (LineIndex.new "a\nbb\nccc\n".toList).lines 0 9 = some [(0, 2), (2, 5), (5, 9)] ∧
    (LineIndex.new []).lines 0 0 = some [] ∧ (LineIndex.new ['\n']).lines 0 1 = some [(0, 1)] := by decide +kernel

/-! ### `move_language_server/src/lsp_utils.rs:145-206` -/

private def c (sl sc el ec : Nat) (text : String) : Edits.Change := ⟨some ⟨⟨sl, sc⟩, ⟨el, ec⟩⟩, text.toList⟩

private def edits (text : String) (cs : List Edits.Change) (res : String) : Bool :=
  Edits.applyDocumentChanges text.toList cs == some res.toList

example : edits "" [] "" = true := by decide +kernel
example : edits "" [⟨none, "the".toList⟩] "the" = true := by decide +kernel
example : edits "the" [c 0 3 0 3 " quick"] "the quick" = true := by decide +kernel
example : edits "the quick" [c 0 0 0 4 "", c 0 5 0 5 " foxes"] "quick foxes" = true := by decide +kernel
example : edits "quick foxes" [c 0 11 0 11 "\ndream"] "quick foxes\ndream" = true := by decide +kernel
example : edits "quick foxes\ndream" [c 1 0 1 0 "have "] "quick foxes\nhave dream" = true := by decide +kernel
example : edits "quick foxes\nhave dream" [c 0 0 0 0 "the ", c 1 4 1 4 " quiet", c 1 16 1 16 "s\n"]
    "the quick foxes\nhave quiet dreams\n" = true := by decide +kernel
example : edits "the quick foxes\nhave quiet dreams\n" [c 0 15 0 15 "\n", c 2 17 2 17 "\n"]
    "the quick foxes\n\nhave quiet dreams\n\n" = true := by decide +kernel
example : edits "the quick foxes\n\nhave quiet dreams\n\n"
    [c 1 0 1 0 "DREAM", c 2 0 2 0 "they ", c 3 0 3 0 "DON'T THEY?"]
    "the quick foxes\nDREAM\nthey have quiet dreams\nDON'T THEY?\n" = true := by decide +kernel
example : edits "the quick foxes\nDREAM\nthey have quiet dreams\nDON'T THEY?\n" [c 0 10 1 5 "", c 2 0 2 12 ""]
    "the quick \nthey have quiet dreams\n" = true := by decide +kernel
example : edits "❤️" [c 0 0 0 0 "a"] "a❤️" = true := by decide +kernel
example : edits "a\nb" [c 0 1 1 0 "\nțc", c 0 1 1 1 "d"] "adcb" = true := by decide +kernel
example : edits "a\nb" [c 0 1 1 0 "ț\nc", c 0 2 0 2 "c"] "ațc\ncb" = true := by decide +kernel

/-! ### `move_language_server/src/lsp_utils.rs:208-325` -/

open Disjoint in
private def disjoint (t : Option CompletionTextEdit) (own : Option (List Edits.Range)) (more : List Edits.Range) : Bool :=
  allEditsAreDisjoint ⟨t, own⟩ more

private def e11 : Edits.Range := ⟨⟨1, 1⟩, ⟨2, 2⟩⟩
private def e22 : Edits.Range := ⟨⟨2, 2⟩, ⟨3, 3⟩⟩
private def e33 : Edits.Range := ⟨⟨3, 3⟩, ⟨4, 4⟩⟩
private def joint : Edits.Range := ⟨⟨1, 1⟩, ⟨5, 5⟩⟩

open Disjoint in
/-- A sorting does not reduce in the kernel; the simplifier computes it. -/
local macro "sorts" : tactic => `(tactic| simp +decide [disjoint, allEditsAreDisjoint, collectRanges, List.mergeSort,
  List.MergeSort.Internal.splitInTwo, List.merge, neighboursDisjoint, e11, e22, e33, joint])

example : disjoint none none [] = true := by decide +kernel
example : disjoint none none [e22, e33] = true := by sorts
example : disjoint none none [e22, e33, joint] = false := by sorts
example : disjoint none (some [e11, joint]) [] = false := by sorts
example : disjoint (some (.edit e11)) (some [joint]) [] = false := by sorts
example : disjoint (some (.insertAndReplace e11 e22)) (some [joint]) [] = false := by decide +kernel
example : disjoint (some (.edit e11)) none [] = true := by decide +kernel
example : disjoint (some (.edit e11)) none [joint] = false := by sorts
example : disjoint (some (.edit e11)) none [e22] = true := by sorts

/-! ### `test_utils/src/lib.rs:182-187`, `319-365` -/

private def slices (text : Text) (l : List ((Nat × Nat) × Text)) : List (Text × Text) :=
  l.map fun p => ((text.drop p.1.1).take (p.1.2 - p.1.1), p.2)

private def pairs (l : List (String × String)) : List (Text × Text) := l.map fun p => (p.1.toList, p.2.toList)

private def tagged : Text := "<tag fn>fn <tag>main</tag>() {}</tag>".toList

private theorem tagged_loop : TestUtils.tagLoop ('<' :: "tag".toList) ('<' :: '/' :: "tag".toList ++ ['>']) (tagged.length + 1)
    tagged [] [] [] = some ([((3, 7), none), ((0, 12), some "fn".toList)], "fn main() {}".toList) := by decide +kernel

example : TestUtils.extractTags tagged "tag".toList
    = some ([((0, 12), some "fn".toList), ((3, 7), none)], "fn main() {}".toList) := by
  have e := congrArg (Option.map fun r => (r.1.mergeSort TestUtils.tagLe, r.2)) tagged_loop
  refine Eq.trans e ?_
  simp +decide [List.mergeSort, List.MergeSort.Internal.splitInTwo, TestUtils.tagLe]

private def annotated1 : Text := (Stdx.trimIndent "
fn main() {
    let (x,     y) = (9, 2);
       //^ def  ^ def
    zoo + 1
} //^^^ type:
  //  | i32

// ^file
    ".toList).getD []

example : ((TestUtils.extractAnnotations annotated1).map fun r => (slices annotated1 (r.take 3), r.drop 3 |>.map fun x => x.1.2 - x.1.1))
    = some (pairs [("x", "def"), ("y", "def"), ("zoo", "type:\ni32\n")], [115]) := by decide +kernel

private def annotated2 : Text := (Stdx.trimIndent "
fn main() {
    (x,   y);
   //^ a
      //  ^ b
  //^^^^^^^^ c
}".toList).getD []

example : (TestUtils.extractAnnotations annotated2).map (slices annotated2)
    = some (pairs [("x", "a"), ("y", "b"), ("(x,   y)", "c")]) := by decide +kernel

/-! ### `vfs/src/vfs_path/tests.rs` -/

private def named (path : String) (name : String) (ext : Option String) : Bool :=
  Paths.nameAndExtension path.toList == some (name.toList, ext.map String.toList)

example : Paths.nameAndExtension "/".toList = none ∧ named "/directory" "directory" none = true ∧
    named "/directory/" "directory" none = true ∧ named "/directory/file" "file" none = true ∧
    named "/directory/.file" ".file" none = true ∧ named "/directory/.file.rs" ".file" (some "rs") = true ∧
    named "/directory/file.rs" "file" (some "rs") = true := by decide +kernel

/-! ### `vfs/src/file_set/tests.rs` -/

private def virt (p : String) : FileSet.VfsPath := .virtualPath (p.toList.map fun c => UInt8.ofNat c.toNat)

private def stored (ps : List String) : Vfs.Vfs FileSet.VfsPath Unit :=
  ps.foldl (fun v p => ((v.setFileContents (virt p) (some ())).map Prod.fst).getD v) Vfs.Vfs.empty

/-- The sizes of the sets of the partition. -/
private def sizes (nFileSets : Nat) (map : List (FileSet.Bytes × Nat)) (files : List String) : Option (List Nat) :=
  ((FileSet.FileSetConfig.mk nFileSets map).partition (stored files)).map fun sets => sets.map fun s => s.iter.length

private def entry (p : String) (i : Nat) : FileSet.Bytes × Nat := ((virt p).encode, i)

private theorem built (a b : String) (h : FileSet.entryLe (entry a 0) (entry b 1) = true)
    (hne : (FileSet.bytesLe (entry a 0).1 (entry b 1).1 && (entry a 0).1 != (entry b 1).1) = true)
    (hd : (entry b 1).1 ≠ (entry a 0).1) :
    FileSet.build [[virt a], [virt b]] = some ⟨3, [entry a 0, entry b 1]⟩ := by
  have h1 : (FileSet.collect [[virt a], [virt b]] 0).mergeSort FileSet.entryLe = [entry a 0, entry b 1] := by
    apply List.mergeSort_of_pairwise
    show List.Pairwise _ [entry a 0, entry b 1]
    simp [h]
  unfold FileSet.build
  rw [h1]
  simp only [FileSet.dedup, FileSet.dedupFrom, if_neg hd, FileSet.fstFromIter, if_pos hne, List.length_cons, List.length_nil,
    Option.map]

example : FileSet.build [[virt "/foo"], [virt "/foo/bar/baz"]] = some ⟨3, [entry "/foo" 0, entry "/foo/bar/baz" 1]⟩ ∧
    sizes 3 [entry "/foo" 0, entry "/foo/bar/baz" 1]
      ["/foo/src/lib.rs", "/foo/src/bar/baz/lib.rs", "/foo/bar/baz/lib.rs", "/quux/lib.rs"] = some [2, 1, 1] :=
  ⟨built _ _ (by decide +kernel) (by decide +kernel) (by decide +kernel), by decide +kernel⟩

example : FileSet.build [[virt "/foo"], [virt "/foo-things"]] = some ⟨3, [entry "/foo" 0, entry "/foo-things" 1]⟩ ∧
    sizes 3 [entry "/foo" 0, entry "/foo-things" 1] ["/foo/src/lib.rs", "/foo-things/src/lib.rs"] = some [1, 1, 0] :=
  ⟨built _ _ (by decide +kernel) (by decide +kernel) (by decide +kernel), by decide +kernel⟩

/-! ### `parser/src/token_set.rs:33-40` -/

example : (TokenSet.new [.EOF]).contains .EOF = true ∧ (TokenSet.new [.EOF]).contains .PLUS = false := by decide +kernel

end Verif.Conformance
