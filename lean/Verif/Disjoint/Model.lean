import Verif.Edits.Model

/-!
Model of `all_edits_are_disjoint`, `crates/move_language_server/src/lsp_utils.rs:100-134`.
-/

namespace Verif.Disjoint

open Verif.Edits (Position Range)

/-- The derived order on `lsp_types::Position` (`line` first, then `character`). -/
def posLe (a b : Position) : Bool :=
  a.line < b.line || (a.line == b.line && a.character ≤ b.character)

/-- `a > b` on positions. -/
def posGt (a b : Position) : Bool := !posLe a b

/-- The order `sort_by_key(|range| (range.start, range.end))`, lsp_utils.rs:129. -/
def rangeLe (a b : Range) : Bool :=
  (posLe a.start b.start && !posLe b.start a.start) || (a.start == b.start && posLe a.stop b.stop)

/-- `lsp_types::CompletionTextEdit`: the new text does not matter here. -/
inductive CompletionTextEdit where
  | edit (range : Range)
  | insertAndReplace (insert replace : Range)

/-- The fields of `lsp_types::CompletionItem` read by the function. -/
structure CompletionItem where
  textEdit : Option CompletionTextEdit
  additionalTextEdits : Option (List Range)

/-- lsp_utils.rs:130-133: neighbours in the sorted list do not overlap. -/
def neighboursDisjoint : List Range → Bool
  | [] => true
  | [_] => true
  | a :: b :: rest => posLe a.stop b.start && neighboursDisjoint (b :: rest)

/-- lsp_utils.rs:106-128: the collected ranges, `none` for the early `return false`. -/
def collectRanges (c : CompletionItem) (additional : List Range) : Option (List Range) :=
  match c.textEdit with
  | some (.edit r) => some ([r] ++ c.additionalTextEdits.getD [] ++ additional)
  | some (.insertAndReplace insert replace) =>
    if replace.start ≠ insert.start ∨ posGt insert.start insert.stop ∨ posGt insert.stop replace.stop
    then none
    else some ([replace] ++ c.additionalTextEdits.getD [] ++ additional)
  | none => some (c.additionalTextEdits.getD [] ++ additional)

/-- `all_edits_are_disjoint`, lsp_utils.rs:102-134.  `sort_by_key` is a stable sort. -/
def allEditsAreDisjoint (c : CompletionItem) (additional : List Range) : Bool :=
  match collectRanges c additional with
  | none => false
  | some ranges => neighboursDisjoint (ranges.mergeSort rangeLe)

end Verif.Disjoint
