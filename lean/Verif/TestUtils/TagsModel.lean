import Verif.TestUtils.AnnotationsModel

set_option autoImplicit false

/-!
Model of `extract_tags` of `/repo/crates/test_utils/src/lib.rs`.  `none` is a panic.
-/

namespace Verif.TestUtils

open Lexer

/-- A tagged range and its attribute. -/
abbrev Tagged := (Nat × Nat) × Option Text

/-- The loop of `extract_tags`, test_utils/src/lib.rs:149-177, and the assertion behind it.  The first
argument bounds the number of rounds; the top of the stack is the head of the list. -/
def tagLoop (opening closing : Text) :
    Nat → Text → Text → List (Nat × Option Text) → List Tagged → Option (List Tagged × Text)
  | 0, _, _, _, _ => none
  | fuel + 1, text, res, stack, ranges =>
    match findChar (· == '<') text with
    | none => if stack.isEmpty then some (ranges, res ++ text) else none
    | some i =>
      match sliceRange text 0 i, sliceFrom text i with
      | some before, some text =>
        let res := res ++ before
        if opening.isPrefixOf text then
          match findChar (· == '>') text with
          | none => none
          | some closeOpen =>
            match sliceRange text (byteLen opening) closeOpen, sliceFrom text (closeOpen + 1) with
            | some attr, some text =>
              let attr := Stdx.trim attr
              let attr := if attr.isEmpty then none else some attr
              tagLoop opening closing fuel text res ((byteLen res, attr) :: stack) ranges
            | _, _ => none
        else if closing.isPrefixOf text then
          match sliceFrom text (byteLen closing), stack with
          | some text, (start, attr) :: stack =>
            let stop := byteLen res
            if start ≤ stop then
              tagLoop opening closing fuel text res stack (ranges ++ [((start, stop), attr)])
            else none
          | _, _ => none
        else
          match sliceFrom text 1 with
          | none => none
          | some text => tagLoop opening closing fuel text (res ++ ['<']) stack ranges
      | _, _ => none

/-- The order of `sort_by_key`, test_utils/src/lib.rs:179. -/
def tagLe (a b : Tagged) : Bool := a.1.1 < b.1.1 || (a.1.1 == b.1.1 && a.1.2 ≤ b.1.2)

/-- `extract_tags`, test_utils/src/lib.rs:143-181; `sort_by_key` is stable. -/
def extractTags (text tag : Text) : Option (List Tagged × Text) :=
  let opening := '<' :: tag
  let closing := '<' :: '/' :: tag ++ ['>']
  (tagLoop opening closing (text.length + 1) text [] [] []).map fun (ranges, res) => (ranges.mergeSort tagLe, res)

end Verif.TestUtils
