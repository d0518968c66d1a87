import Verif.Parser.Token

set_option autoImplicit false

/-!
Specification of the situations in which the parser does not get any further: a loop of the grammar stands at a
token that it neither consumes nor ends at.
-/

namespace Verif.Parser

open Kind

/-- The run of `p` from `s` calls the loop or function `f` in the state `t`. -/
inductive Calls : {α : Type} → Prog α → TState → Fn → TState → Prop where
  | here {α : Type} {p : Prog α} {s s1 : TState} {f : Fn} {k : f.Res → Prog α} :
      exec p s = .call f s1 k → Calls p s f s1
  | inside {α : Type} {p : Prog α} {s s1 t : TState} {f g : Fn} {k : f.Res → Prog α} :
      exec p s = .call f s1 k → Calls (body f) s1 g t → Calls p s g t
  | after {α : Type} {p : Prog α} {s s1 s2 t : TState} {f g : Fn} {r : f.Res} {k : f.Res → Prog α} :
      exec p s = .call f s1 k → Runs (body f) s1 r s2 → Calls (k r) s2 g t → Calls p s g t

/-- The loops that do not get past some tokens, and these tokens. -/
def Lost : Fn → Kind → Prop
  /- between the items of a file -/
  | .rootLoop, k => k ∉ [EOF, MODULE_KW, SCRIPT_KW, ADDRESS_KW, WHITESPACE, COMMENT]
  /- between the modules of an address block -/
  | .addressItemLoop, k => k ∉ [R_BRACE, EOF, MODULE_KW]
  /- between the items of a module or script -/
  | .itemLoop, k => k ∉ [R_BRACE, EOF, FUN_KW, STRUCT_KW, SEMICOLON]
  /- between the fields of a struct -/
  | .recordFieldLoop, k => k = L_BRACE
  /- between the statements of a block -/
  | .blockLoop, k => k = R_PAREN
  | .exprBlockLoop, k => k = R_PAREN
  /- between parentheses -/
  | .parenLoop, k => k = SEMICOLON
  | _, _ => False

instance (f : Fn) (k : Kind) : Decidable (Lost f k) := by
  cases f <;> (unfold Lost; infer_instance)

/-- The parser, reading these tokens, comes to a loop at a token that the loop does not get past. -/
def GetsLost (ts : List (Kind × Text)) : Prop :=
  ∃ f t, Calls root ⟨annot ts, 0, 0, .nil, []⟩ f t ∧ Lost f (kind0 t.toks)

end Verif.Parser
