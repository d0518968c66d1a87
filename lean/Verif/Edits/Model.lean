import Verif.LineIndex.Model

/-!
Model of document edits: `crates/move_language_server/src/lsp_utils.rs`
(`apply_document_changes`) and `crates/move_language_server/src/from_proto.rs`
(`offset`, `text_range`).  `none` is a panic.
-/

namespace Verif.Edits

open Verif.LineIndex

/-- `lsp_types::Position`. -/
structure Position where
  line : Nat
  character : Nat
deriving DecidableEq, Repr

/-- `lsp_types::Range`. -/
structure Range where
  start : Position
  stop : Position
deriving DecidableEq, Repr

/-- `lsp_types::TextDocumentContentChangeEvent`; the deprecated `range_length` is ignored by
the code. -/
structure Change where
  range : Option Range
  text : Text
deriving DecidableEq, Repr

/-- `OffsetEncoding`, line_index.rs:10-13. -/
inductive OffsetEncoding where
  | utf8
  | utf16
deriving DecidableEq, Repr

/-- `from_proto::offset`, from_proto.rs:26-38. -/
def offset (li : LineIndex) (enc : OffsetEncoding) (pos : Position) : Option Nat :=
  match enc with
  | .utf8 => li.offset ⟨pos.line, pos.character⟩
  | .utf16 => li.offset (li.toUtf8 ⟨pos.line, pos.character⟩)

/-- `from_proto::text_range`, from_proto.rs:40-44. -/
def textRange (li : LineIndex) (enc : OffsetEncoding) (r : Range) : Option (Nat × Nat) :=
  match offset li enc r.start, offset li enc r.stop with
  | some s, some e => mkRange s e
  | _, _ => none

/-- Splitting a string at a byte index; `none` when the index is not a character boundary
(`str::is_char_boundary` fails) or past the end. -/
def splitAtByte : Nat → Text → Option (Text × Text)
  | 0, t => some ([], t)
  | _ + 1, [] => none
  | n + 1, c :: cs =>
    if c.utf8Size ≤ n + 1 then
      match splitAtByte (n + 1 - c.utf8Size) cs with
      | none => none
      | some (p, q) => some (c :: p, q)
    else none

/-- `String::replace_range(s..e, new)`. -/
def replaceRange (text : Text) (s e : Nat) (new : Text) : Option Text :=
  match splitAtByte s text, splitAtByte e text with
  | some (p, _), some (_, q) => some (p ++ new ++ q)
  | _, _ => none

/-- `IndexValid`, lsp_utils.rs:67-70. -/
inductive IndexValid where
  | all
  | upToLineExclusive (n : Nat)
deriving DecidableEq, Repr

/-- `IndexValid::covers`, lsp_utils.rs:72-79. -/
def IndexValid.covers : IndexValid → Nat → Bool
  | .upToLineExclusive to, line => to > line
  | .all, _ => true

/-- The loop variables of `apply_document_changes`, lsp_utils.rs:55-81. -/
structure EditState where
  text : Text
  index : LineIndex
  valid : IndexValid

/-- Body of the loop, lsp_utils.rs:82-97. -/
def editStep (s : EditState) (change : Change) : Option EditState :=
  match change.range with
  | some range =>
    let index := if s.valid.covers range.stop.line then s.index else LineIndex.new s.text
    match textRange index .utf16 range with
    | none => none
    | some (a, b) =>
      match replaceRange s.text a b change.text with
      | none => none
      | some text => some { text := text, index := index, valid := .upToLineExclusive range.start.line }
  | none => some { s with text := change.text, valid := .upToLineExclusive 0 }

/-- `apply_document_changes`, lsp_utils.rs:51-98. -/
def applyDocumentChanges (oldText : Text) (changes : List Change) : Option Text :=
  match changes.foldlM editStep { text := oldText, index := LineIndex.new oldText, valid := .all } with
  | none => none
  | some s => some s.text

end Verif.Edits
