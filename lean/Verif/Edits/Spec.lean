import Verif.Text.Spec

/-!
What the language server protocol says about content changes.
-/

namespace Verif.Edits.Spec

/-- The position of the end of the prefix `p`: zero-based line, and UTF-16 code units since
the start of the line. -/
def posOf (p : Text) : Nat × Nat := (newlineCount p, utf16Len (lastLine p))

/-- A content change: either a range (start position, end position) with the replacement, or
the full new text. -/
inductive Edit where
  | ranged (start stop : Nat × Nat) (text : Text)
  | full (text : Text)

/-- `EditsTo t e t'`: edit `e` turns `t` into `t'`.  A ranged edit keeps the text before its
start position and after its end position and replaces what is between. -/
inductive EditsTo : Text → Edit → Text → Prop where
  | ranged (p m s new : Text) :
      EditsTo (p ++ m ++ s) (.ranged (posOf p) (posOf (p ++ m)) new) (p ++ new ++ s)
  | full (t new : Text) : EditsTo t (.full new) new

/-- A list of edits is applied one after the other, each to the result of the previous. -/
inductive EditsSeq : Text → List Edit → Text → Prop where
  | nil (t : Text) : EditsSeq t [] t
  | cons {t e t' es t''} : EditsTo t e t' → EditsSeq t' es t'' → EditsSeq t (e :: es) t''

end Verif.Edits.Spec
