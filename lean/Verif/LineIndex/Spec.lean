/-!
Vocabulary for the line-index properties.
-/

namespace Verif.LineIndex

/-- The pieces tile the interval from `a` to `e`: the first starts at `a`, each next one
starts where the previous one ended, the last ends at `e`, and none is empty. -/
def Tiles : Nat → Nat → List (Nat × Nat) → Prop
  | a, e, [] => a = e
  | a, e, r :: rs => r.1 = a ∧ a < r.2 ∧ Tiles r.2 e rs

/-- Lexicographic order on (line, column) pairs. -/
def PosLt (a b : Nat × Nat) : Prop := a.1 < b.1 ∨ (a.1 = b.1 ∧ a.2 < b.2)

end Verif.LineIndex
