import Verif.Lexer.Model

set_option autoImplicit false

/-!
Model of the markers of `/repo/crates/test_utils/src/lib.rs`.  `none` is a panic.
-/

namespace Verif.TestUtils

open Lexer

/-- `str::find` with a text: the byte offset of the first occurrence. -/
def find (pat : Text) : Text → Option Nat
  | [] => if pat.isPrefixOf [] then some 0 else none
  | c :: cs => if pat.isPrefixOf (c :: cs) then some 0 else (find pat cs).map (c.utf8Size + ·)

/-- `CURSOR_MARKER`, test_utils/src/lib.rs:28. -/
def cursorMarker : Text := ['$', '0']

/-- `try_extract_offset`, test_utils/src/lib.rs:68-75; the inner option is the returned one. -/
def tryExtractOffset (text : Text) : Option (Option (Nat × Text)) :=
  match find cursorMarker text with
  | none => some none
  | some cursorPos =>
    match sliceRange text 0 cursorPos, sliceFrom text (cursorPos + byteLen cursorMarker) with
    | some a, some b => some (some (cursorPos, a ++ b))
    | _, _ => none

/-- `extract_offset`, test_utils/src/lib.rs:59-64. -/
def extractOffset (text : Text) : Option (Nat × Text) :=
  match tryExtractOffset text with
  | none => none
  | some r => r

/-- `try_extract_range`, test_utils/src/lib.rs:87-91; `TextRange::new` asserts `start <= end`. -/
def tryExtractRange (text : Text) : Option (Option ((Nat × Nat) × Text)) :=
  match tryExtractOffset text with
  | none => none
  | some none => some none
  | some (some (start, text)) =>
    match tryExtractOffset text with
    | none => none
    | some none => some none
    | some (some (stop, text)) => if start ≤ stop then some (some ((start, stop), text)) else none

/-- `extract_range`, test_utils/src/lib.rs:78-83. -/
def extractRange (text : Text) : Option ((Nat × Nat) × Text) :=
  match tryExtractRange text with
  | none => none
  | some r => r

/-- `RangeOrOffset`, test_utils/src/lib.rs:94-97. -/
inductive RangeOrOffset where
  | range (r : Nat × Nat)
  | offset (o : Nat)
  deriving DecidableEq, Repr

/-- `extract_range_or_offset`, test_utils/src/lib.rs:134-140. -/
def extractRangeOrOffset (text : Text) : Option (RangeOrOffset × Text) :=
  match tryExtractRange text with
  | none => none
  | some (some (range, text)) => some (.range range, text)
  | some none => (extractOffset text).map fun (offset, text) => (.offset offset, text)

/-- `add_cursor`, test_utils/src/lib.rs:190-197. -/
def addCursor (text : Text) (offset : Nat) : Option Text :=
  match sliceRange text 0 offset, sliceFrom text offset with
  | some a, some b => some (a ++ ['$', '0'] ++ b)
  | _, _ => none

end Verif.TestUtils
