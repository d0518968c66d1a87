import Verif.Text.Spec

/-! What path operations mean, in terms of directory names. -/

namespace Verif.Paths.Spec

/-- An absolute path given by the names on it. -/
def render : List Text → Text
  | [] => []
  | n :: ns => '/' :: n ++ render ns

/-- A proper file or directory name. -/
def Name (n : Text) : Prop := n ≠ [] ∧ '/' ∉ n ∧ n ≠ ['.'] ∧ n ≠ ['.', '.']

/-- `Walk here segs there`: starting in the directory `here` (list of names from the root) and
following the path segments `segs` one by one leads to `there`. -/
inductive Walk : List Text → List Text → List Text → Prop where
  | stop (here : List Text) : Walk here [] here
  | empty {here segs there} : Walk here segs there → Walk here ([] :: segs) there
  | dot {here segs there} : Walk here segs there → Walk here (['.'] :: segs) there
  | up {here last segs there} : Walk here segs there → Walk (here ++ [last]) (['.', '.'] :: segs) there
  | upRoot {segs there} : Walk [] segs there → Walk [] (['.', '.'] :: segs) there
  | down {here n segs there} : Name n → Walk (here ++ [n]) segs there → Walk here (n :: segs) there

/-- `k` times `../`. -/
def ups : Nat → Text
  | 0 => []
  | k + 1 => '.' :: '.' :: '/' :: ups k

/-- `k` times `./`. -/
def dots : Nat → Text
  | 0 => []
  | k + 1 => '.' :: '/' :: dots k

end Verif.Paths.Spec
