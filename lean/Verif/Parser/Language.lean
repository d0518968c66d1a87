import Verif.Parser.Spec

set_option autoImplicit false

/-!
The language of the parser, as a context-free grammar, independent of the code: which token
sequences are Move files, and which tree each of them has.  It covers the constructs the parser
knows; see `DESIGN.md` for those it does not.
-/

namespace Verif.Language

/-- A syntax tree without texts and trivia. -/
inductive Shape where
  | leaf (kind : Kind)
  | node (kind : Kind) (kids : List Shape)

/-- The nonterminals. -/
inductive NT where
  | file | moduleDef | scriptDef | addressDef | moduleList | modules
  | itemBody | items | address | name | nameRef
  | funDef | paramList | params | param | ret
  | structDef | genericList | generics | generic | boundList | bounds | bound
  | fieldList | fields | field
  | type | path | segment | onePath
  | pattern | patFieldList | patFields | patField | identPat | pats
  | block | stmts | stmt
  /-- an expression whose operators outside of parentheses bind at least as tightly as `level` -/
  | expr (level : Nat)
  | unary | postfixed | atom | addressLit | argList | args | exprFieldList | exprFields | exprField
  | pathExpr

/-- The symbols on the right of a rule. -/
inductive Sym where
  | tok (kind : Kind)
  /-- a number that starts with `0x`, where an address is expected -/
  | hex
  | nt (x : NT)

instance : Coe Kind Sym := ⟨.tok⟩
instance : Coe NT Sym := ⟨.nt⟩

/-- How tightly a binary operator binds. -/
def precedence : Kind → Option Nat
  | .EQ => some 1
  | .LT | .GT => some 5
  | .PIPE => some 6
  | .CARET => some 7
  | .AMP => some 8
  | .PLUS | .MINUS => some 10
  | .STAR | .SLASH | .MOD => some 11
  | _ => none

open Kind NT

/-- The rules.  `Rule x k rhs`: an `x` consists of `rhs`; it is a node of kind `k` in the tree, or
no node of its own if `k` is `none`. -/
inductive Rule : NT → Option Kind → List Sym → Prop where
  -- files
  | file_nil : Rule file none []
  | file_module : Rule file none [moduleDef, file]
  | file_script : Rule file none [scriptDef, file]
  | file_address : Rule file none [addressDef, file]
  | module_plain : Rule moduleDef MODULE_DEF [MODULE_KW, name, itemBody]
  | module_at : Rule moduleDef MODULE_DEF [MODULE_KW, address, COLON_COLON, name, itemBody]
  | script : Rule scriptDef SCRIPT_DEF [SCRIPT_KW, itemBody]
  | address_block : Rule addressDef ADDRESS_DEF [ADDRESS_KW, address, moduleList]
  | module_list : Rule moduleList ADDRESS_ITEM_LIST [L_BRACE, modules, R_BRACE]
  | modules_nil : Rule modules none []
  | modules_cons : Rule modules none [moduleDef, modules]
  | address_name : Rule address ADDRESS_IDENT [IDENT]
  | address_hex : Rule address ADDRESS_IDENT [Sym.hex]
  | name : Rule name NAME [IDENT]
  | name_ref : Rule nameRef NAME_REF [IDENT]
  -- items
  | item_body : Rule itemBody ITEM_LIST [L_BRACE, items, R_BRACE]
  | items_nil : Rule items none []
  | items_fun : Rule items none [funDef, items]
  | items_struct : Rule items none [structDef, items]
  -- functions
  | fun_unit : Rule funDef FUNCTION_DEF [FUN_KW, name, paramList, block]
  | fun_ret : Rule funDef FUNCTION_DEF [FUN_KW, name, paramList, ret, block]
  | ret : Rule ret RET_TYPE [COLON, type]
  | param_list : Rule paramList PARAM_LIST [L_PAREN, params, R_PAREN]
  | params_nil : Rule params none []
  | params_one : Rule params none [param]
  | params_cons : Rule params none [param, COMMA, params]
  | param : Rule param PARAM [name, COLON, type]
  -- structs
  | struct_native : Rule structDef STRUCT [STRUCT_KW, name, SEMICOLON]
  | struct_fields : Rule structDef STRUCT [STRUCT_KW, name, fieldList]
  | struct_generic_native : Rule structDef STRUCT [STRUCT_KW, name, genericList, SEMICOLON]
  | struct_generic_fields : Rule structDef STRUCT [STRUCT_KW, name, genericList, fieldList]
  | generic_list : Rule genericList GENERIC_PARAM_LIST [LT, generics, GT]
  | generics_nil : Rule generics none []
  | generics_one : Rule generics none [generic]
  | generics_cons : Rule generics none [generic, COMMA, generics]
  | generic_plain : Rule generic TYPE_PARAM [name]
  | generic_bounds : Rule generic TYPE_PARAM [name, COLON, boundList]
  | bound_list : Rule boundList TYPE_BOUND_LIST [bounds]
  | bounds_one : Rule bounds none [bound]
  | bounds_cons : Rule bounds none [bound, PLUS, bounds]
  | bound : Rule bound TYPE_BOUND [name]
  | field_list : Rule fieldList RECORD_FIELD_LIST [L_BRACE, fields, R_BRACE]
  | fields_nil : Rule fields none []
  | fields_one : Rule fields none [field]
  | fields_cons : Rule fields none [field, COMMA, fields]
  | field : Rule field RECORD_FIELD [name, COLON, type]
  -- types and paths
  | type_path : Rule type PATH_TYPE [path]
  | type_ref : Rule type REF_TYPE [AMP, type]
  | type_ref_mut : Rule type REF_TYPE [AMP, MUT_KW, type]
  | path_one : Rule path none [onePath]
  | path_more : Rule path PATH [path, COLON_COLON, segment]
  | one_path : Rule onePath PATH [segment]
  | segment : Rule segment PATH_SEGMENT [nameRef]
  -- patterns
  | pattern_ident : Rule pattern none [identPat]
  | ident_pat : Rule identPat IDENT_PAT [name]
  | ident_pat_mut : Rule identPat IDENT_PAT [MUT_KW, name]
  | pattern_record : Rule pattern RECORD_PAT [onePath, patFieldList]
  | pattern_unit : Rule pattern TUPLE_PAT [L_PAREN, R_PAREN]
  | pattern_paren : Rule pattern PAREN_PAT [L_PAREN, pattern, R_PAREN]
  | pattern_tuple : Rule pattern TUPLE_PAT [L_PAREN, pattern, COMMA, pats, R_PAREN]
  | pats_nil : Rule pats none []
  | pats_one : Rule pats none [pattern]
  | pats_cons : Rule pats none [pattern, COMMA, pats]
  | pat_field_list : Rule patFieldList RECORD_PAT_FIELD_LIST [L_BRACE, patFields, R_BRACE]
  | pat_fields_nil : Rule patFields none []
  | pat_fields_one : Rule patFields none [patField]
  | pat_fields_cons : Rule patFields none [patField, COMMA, patFields]
  | pat_field_short : Rule patField RECORD_PAT_FIELD [identPat]
  | pat_field : Rule patField RECORD_PAT_FIELD [nameRef, COLON, pattern]
  -- blocks and statements
  | block : Rule block BLOCK_EXPR [L_BRACE, stmts, R_BRACE]
  | stmts_nil : Rule stmts none []
  | stmts_last : Rule stmts EXPR_STMT [expr 1]
  | stmts_cons : Rule stmts none [stmt, stmts]
  | stmt_expr : Rule stmt EXPR_STMT [expr 1, SEMICOLON]
  | stmt_let : Rule stmt LET_STMT [LET_KW, pattern, SEMICOLON]
  | stmt_let_type : Rule stmt LET_STMT [LET_KW, pattern, COLON, type, SEMICOLON]
  | stmt_let_init : Rule stmt LET_STMT [LET_KW, pattern, EQ, expr 1, SEMICOLON]
  | stmt_let_both : Rule stmt LET_STMT [LET_KW, pattern, COLON, type, EQ, expr 1, SEMICOLON]
  -- expressions
  | expr_up {q : Nat} : q < 12 → Rule (expr q) none [expr (q + 1)]
  | expr_bin {q : Nat} {op : Kind} : precedence op = some q →
      Rule (expr q) BIN_EXPR [expr q, op, expr (q + 1)]
  | expr_unary : Rule (expr 12) none [unary]
  | unary_star : Rule unary PREFIX_EXPR [STAR, unary]
  | unary_bang : Rule unary PREFIX_EXPR [BANG, unary]
  | unary_minus : Rule unary PREFIX_EXPR [MINUS, unary]
  | unary_postfixed : Rule unary none [postfixed]
  | postfixed_atom : Rule postfixed none [atom]
  | postfixed_call : Rule postfixed CALL_EXPR [postfixed, argList]
  | postfixed_dot : Rule postfixed DOT_EXPR [postfixed, DOT, nameRef]
  | arg_list : Rule argList ARG_LIST [L_PAREN, args, R_PAREN]
  | args_nil : Rule args none []
  | args_one : Rule args none [expr 1]
  | args_cons : Rule args none [expr 1, COMMA, args]
  | atom_true : Rule atom LITERAL [TRUE_KW]
  | atom_false : Rule atom LITERAL [FALSE_KW]
  | atom_integer : Rule atom LITERAL [INTEGER_NUMBER]
  | atom_hex_string : Rule atom LITERAL [HEX_STRING]
  | atom_byte_string : Rule atom LITERAL [BYTE_STRING]
  | atom_address : Rule atom LITERAL [addressLit]
  | address_lit_name : Rule addressLit ADDRESS_LIT [ATSIGN, IDENT]
  | address_lit_hex : Rule addressLit ADDRESS_LIT [ATSIGN, Sym.hex]
  | atom_path : Rule atom PATH_EXPR [path]
  | atom_record : Rule atom RECORD_EXPR [path, exprFieldList]
  | atom_unit : Rule atom PAREN_EXPR [L_PAREN, R_PAREN]
  | atom_paren : Rule atom PAREN_EXPR [L_PAREN, expr 1, R_PAREN]
  | atom_block : Rule atom none [block]
  | expr_field_list : Rule exprFieldList RECORD_EXPR_FIELD_LIST [L_BRACE, exprFields, R_BRACE]
  | expr_fields_nil : Rule exprFields none []
  | expr_fields_one : Rule exprFields none [exprField]
  | expr_fields_cons : Rule exprFields none [exprField, COMMA, exprFields]
  | expr_field_short : Rule exprField RECORD_EXPR_FIELD [pathExpr]
  | path_expr : Rule pathExpr PATH_EXPR [onePath]
  | expr_field : Rule exprField RECORD_EXPR_FIELD [nameRef, COLON, expr 1]

/-- The trees of an `x` from those of the right-hand side of its rule. -/
def wrap : Option Kind → List Shape → List Shape
  | none, shapes => shapes
  | some k, shapes => [.node k shapes]

/-- `Derives syms ts shapes`: the tokens `ts` are an instance of the symbols `syms`, and `shapes`
are their trees. -/
inductive Derives : List Sym → List (Kind × Text) → List Shape → Prop where
  | nil : Derives [] [] []
  | tok {k : Kind} {t : Text} {syms : List Sym} {ts : List (Kind × Text)} {shapes : List Shape} :
      Derives syms ts shapes → Derives (.tok k :: syms) ((k, t) :: ts) (.leaf k :: shapes)
  | hex {t : Text} {syms : List Sym} {ts : List (Kind × Text)} {shapes : List Shape} :
      Derives syms ts shapes →
      Derives (.hex :: syms) ((.INTEGER_NUMBER, '0' :: 'x' :: t) :: ts) (.leaf .DIEM_ADDRESS :: shapes)
  | nt {x : NT} {k : Option Kind} {rhs syms : List Sym} {us ts : List (Kind × Text)}
      {inner shapes : List Shape} :
      Rule x k rhs → Derives rhs us inner → Derives syms ts shapes →
      Derives (.nt x :: syms) (us ++ ts) (wrap k inner ++ shapes)

end Verif.Language

namespace Verif.Parser

open Language

/-- The shape of a tree: without the leaves for whitespace and comments, and without texts. -/
def Green.shapes : Green → List Shape
  | .nil => []
  | .leaf init k _ => if k.isTrivia then init.shapes else init.shapes ++ [.leaf k]
  | .node init k kids => init.shapes ++ [.node k kids.shapes]

/-- Two things the parser is particular about: no comment follows an identifier or a number, and
in `a::b` neither `*` nor `{` follows `b` without a space. -/
structure Spaced (ts : List (Kind × Text)) : Prop where
  comment : ∀ before k t after, ts = before ++ (k, t) :: after →
    k = .IDENT ∨ k = .INTEGER_NUMBER → (after.dropWhile (·.1 == .WHITESPACE)).head?.map Prod.fst ≠ some .COMMENT
  path : ∀ before t x k u after, ts = before ++ (.COLON_COLON, t) :: x :: (k, u) :: after →
    k ≠ .STAR ∧ k ≠ .L_BRACE

end Verif.Parser
