import Verif.TestUtils.Model
import Verif.Stdx.Model

set_option autoImplicit false

/-!
Model of the annotations of `/repo/crates/test_utils/src/lib.rs`.  `none` is a panic.
-/

namespace Verif.TestUtils

open Lexer

/-- `str::find` with a predicate: the byte offset of the first such character. -/
def findChar (p : Char → Bool) : Text → Option Nat
  | [] => none
  | c :: cs => if p c then some 0 else (findChar p cs).map (c.utf8Size + ·)

/-- `LineAnnotation`, test_utils/src/lib.rs:273-276. -/
inductive LineAnnotation where
  | annotation (start stop : Nat) (content : Text) (file : Bool)
  | continuation (offset : Nat) (content : Text)
  deriving DecidableEq, Repr

/-- The loop of `extract_line_annotations`, test_utils/src/lib.rs:282-314.  The first argument bounds the
number of rounds; `content.drop 4` is `&content["file".len()..]` behind a successful `starts_with`. -/
def lineLoop (marker : Char → Bool) : Nat → Text → Nat → Option (List LineAnnotation)
  | 0, _, _ => none
  | fuel + 1, line, offset =>
    match findChar marker line with
    | none => some []
    | some idx =>
      let offset := offset + idx
      match sliceFrom line idx with
      | none => none
      | some line =>
        let run := (line.takeWhile (· == '^')).length
        if run == 0 && line.head? != some '|' then none
        else
          let continuation := run == 0
          let len := if continuation then 1 else run
          match sliceFrom line len with
          | none => none
          | some rest =>
            let next := match findChar marker rest with
              | none => byteLen line
              | some it => it + len
            match sliceRange rest 0 (next - len), sliceFrom line next with
            | some content, some line' =>
              let file := !continuation && startsWith content "file"
              let content := if file then content.drop 4 else content
              let content := Stdx.trim content
              let annotation :=
                if continuation then .continuation (offset + len) content
                else .annotation offset (offset + len) content file
              (lineLoop marker fuel line' (offset + next)).map (annotation :: ·)
            | _, _ => none

/-- `extract_line_annotations`, test_utils/src/lib.rs:278-317. -/
def extractLineAnnotations (line : Text) : Option (List LineAnnotation) :=
  let marker : Char → Bool := if line.contains '^' then (· == '^') else (· == '|')
  lineLoop marker (line.length + 1) line 0

/-- `BTreeMap::insert`; a map is the list of its entries in the order of the keys. -/
def mapInsert (k v : Nat) : List (Nat × Nat) → List (Nat × Nat)
  | [] => [(k, v)]
  | (k', v') :: m =>
    if k < k' then (k, v) :: (k', v') :: m
    else if k = k' then (k, v) :: m
    else (k', v') :: mapInsert k v m

/-- `BTreeMap::split_off`: the entries from the key on. -/
def mapSplitOff (k : Nat) (m : List (Nat × Nat)) : List (Nat × Nat) := m.filter fun e => k ≤ e.1

/-- `BTreeMap::range(k..).next()`. -/
def mapFrom (k : Nat) (m : List (Nat × Nat)) : Option (Nat × Nat) := m.find? fun e => k ≤ e.1

/-- The annotations found so far: range and text. -/
abbrev Found := List ((Nat × Nat) × Text)

/-- One round of the inner loop of `extract_annotations`, test_utils/src/lib.rs:231-256; the state is
`res` and `this_line_annotations`. -/
def annotationStep (textLen annotationOffset : Nat) (lineStartMap prev : List (Nat × Nat)) :
    Found × List (Nat × Nat) → LineAnnotation → Option (Found × List (Nat × Nat))
  | (res, this), .annotation start stop content file =>
    let start := start + annotationOffset
    let stop := stop + annotationOffset
    let this := this ++ [(stop, res.length)]
    if file then some (res ++ [((0, textLen), content)], this)
    else match mapFrom stop lineStartMap with
      | none => none
      | some (_, lineStart) => some (res ++ [((start + lineStart, stop + lineStart), content)], this)
  | (res, this), .continuation offset content =>
    let offset := offset + annotationOffset
    match prev.find? fun e => e.1 == offset with
    | none => none
    | some (_, idx) => some (res.modify idx fun e => (e.1, e.2 ++ '\n' :: content ++ ['\n']), this)

/-- The variables of the loop of `extract_annotations`. -/
structure AnnState where
  res : Found
  lineStartMap : List (Nat × Nat)
  lineStart : Nat
  prev : List (Nat × Nat)

/-- One round of the loop of `extract_annotations`, test_utils/src/lib.rs:227-268. -/
def lineStep (textLen : Nat) (s : AnnState) (line : Text) : Option AnnState :=
  let finish (lineLength : Nat) (res : Found) (this : List (Nat × Nat)) : AnnState :=
    ⟨res, mapInsert lineLength s.lineStart (mapSplitOff lineLength s.lineStartMap),
      s.lineStart + byteLen line, this⟩
  match find ['/', '/'] line with
  | some idx =>
    match sliceFrom line (idx + 2) with
    | none => none
    | some body =>
      match extractLineAnnotations body with
      | none => none
      | some anns =>
        match anns.foldlM (annotationStep textLen (idx + 2) s.lineStartMap s.prev) (s.res, []) with
        | none => none
        | some (res, this) => some (finish idx res this)
  | none => some (finish (byteLen line) s.res [])

/-- `extract_annotations`, test_utils/src/lib.rs:221-271. -/
def extractAnnotations (text : Text) : Option Found :=
  ((Stdx.splitInclusive text).foldlM (lineStep (byteLen text)) ⟨[], [], 0, []⟩).map AnnState.res

end Verif.TestUtils
