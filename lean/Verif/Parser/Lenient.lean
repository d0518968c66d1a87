import Verif.Parser.Language

set_option autoImplicit false

/-!
The language the parser lets pass, as a context-free grammar: the rules of `Language.lean`, and the
rules below, which describe every text that is not a Move file and about which the parser
nevertheless says nothing.
-/

namespace Verif.Language

open Kind NT

/-- The rules of `Language.lean`, and the following liberties. -/
inductive Lenient : NT → Option Kind → List Sym → Prop where
  | strict {x : NT} {k : Option Kind} {rhs : List Sym} : Rule x k rhs → Lenient x k rhs
  /-- `module M;` -/
  | module_semi : Lenient moduleDef MODULE_DEF [MODULE_KW, name, SEMICOLON]
  /-- `module 0x1::M;` -/
  | module_at_semi : Lenient moduleDef MODULE_DEF [MODULE_KW, address, COLON_COLON, name, SEMICOLON]
  /-- `script;` -/
  | script_semi : Lenient scriptDef SCRIPT_DEF [SCRIPT_KW, SEMICOLON]
  /-- `T:` and `T: copy +` in the type parameters of a structure -/
  | bounds_none : Lenient bounds none []
  /-- statements that are not the last one, and `let`, without a semicolon -/
  | stmt_expr : Lenient stmt EXPR_STMT [expr 1]
  | stmt_let : Lenient stmt LET_STMT [LET_KW, pattern]
  | stmt_let_type : Lenient stmt LET_STMT [LET_KW, pattern, COLON, type]
  | stmt_let_init : Lenient stmt LET_STMT [LET_KW, pattern, EQ, expr 1]
  | stmt_let_both : Lenient stmt LET_STMT [LET_KW, pattern, COLON, type, EQ, expr 1]
  /-- `S { 1 + 2 }`: an expression that is not a name in place of a field -/
  | field_expr : Lenient exprField RECORD_EXPR_FIELD [expr 1]
  /-- `(a b c)` -/
  | parens (n : Nat) : Lenient atom PAREN_EXPR (L_PAREN :: (List.replicate n (Sym.nt (expr 1)) ++ [Sym.tok R_PAREN]))

/-- `DerivesBy R syms ts shapes`: by the rules `R`, the tokens `ts` are an instance of the symbols
`syms`, and `shapes` are their trees. -/
inductive DerivesBy (R : NT → Option Kind → List Sym → Prop) :
    List Sym → List (Kind × Text) → List Shape → Prop where
  | nil : DerivesBy R [] [] []
  | tok {k : Kind} {t : Text} {syms : List Sym} {ts : List (Kind × Text)} {shapes : List Shape} :
      DerivesBy R syms ts shapes → DerivesBy R (.tok k :: syms) ((k, t) :: ts) (.leaf k :: shapes)
  | hex {t : Text} {syms : List Sym} {ts : List (Kind × Text)} {shapes : List Shape} :
      DerivesBy R syms ts shapes →
      DerivesBy R (.hex :: syms) ((.INTEGER_NUMBER, '0' :: 'x' :: t) :: ts) (.leaf .DIEM_ADDRESS :: shapes)
  | nt {x : NT} {k : Option Kind} {rhs syms : List Sym} {us ts : List (Kind × Text)}
      {inner shapes : List Shape} :
      R x k rhs → DerivesBy R rhs us inner → DerivesBy R syms ts shapes →
      DerivesBy R (.nt x :: syms) (us ++ ts) (wrap k inner ++ shapes)

/-- By the rules of `Language.lean`, that is `Derives`. -/
theorem derivesBy_rule {syms : List Sym} {ts : List (Kind × Text)} {shapes : List Shape} :
    DerivesBy Rule syms ts shapes ↔ Derives syms ts shapes := by
  constructor
  · intro h
    induction h with
    | nil => exact .nil
    | tok _ ih => exact .tok ih
    | hex _ ih => exact .hex ih
    | nt r _ _ ih1 ih2 => exact .nt r ih1 ih2
  · intro h
    induction h with
    | nil => exact .nil
    | tok _ ih => exact .tok ih
    | hex _ ih => exact .hex ih
    | nt r _ _ ih1 ih2 => exact .nt r ih1 ih2

/-- Every file of the language is one of the lenient language. -/
theorem Derives.lenient {syms : List Sym} {ts : List (Kind × Text)} {shapes : List Shape}
    (h : Derives syms ts shapes) : DerivesBy Lenient syms ts shapes := by
  induction h with
  | nil => exact .nil
  | tok _ ih => exact .tok ih
  | hex _ ih => exact .hex ih
  | nt r _ _ ih1 ih2 => exact .nt (.strict r) ih1 ih2

theorem DerivesBy.append {R : NT → Option Kind → List Sym → Prop} {s1 s2 : List Sym}
    {t1 t2 : List (Kind × Text)} {sh1 sh2 : List Shape} (h1 : DerivesBy R s1 t1 sh1)
    (h2 : DerivesBy R s2 t2 sh2) : DerivesBy R (s1 ++ s2) (t1 ++ t2) (sh1 ++ sh2) := by
  induction h1 with
  | nil => exact h2
  | tok _ ih => exact .tok ih
  | hex _ ih => exact .hex ih
  | nt r h _ _ ih =>
    rw [List.append_assoc, List.append_assoc]
    exact .nt r h ih

end Verif.Language
