set_option autoImplicit false

/-!
Model of the syntax kinds and of the bit sets of syntax kinds:
`/repo/crates/parser/src/syntax_kind/generated.rs`, `syntax_kind.rs`, `token_set.rs`.
-/

namespace Verif

/-- crates/parser/src/syntax_kind/generated.rs:5-126, `enum SyntaxKind` (`#[repr(u16)]`, no
explicit discriminants, so the discriminant is the position in the list). -/
inductive Kind where
  | TOMBSTONE | EOF | COLON | COLON_COLON | SEMICOLON | COMMA | L_PAREN | R_PAREN | L_BRACE
  | R_BRACE | L_BRACK | R_BRACK | PLUS | MINUS | STAR | SLASH | MOD | NUMSIGN | ATSIGN | DOT
  | DOTDOT | AMP | AMP_AMP | AMP_MUT | CARET | PIPE | PIPE_PIPE | BANG | BANG_EQ | EQ | EQ_EQ
  | EQ_EQ_GT | GT | GT_GT | GT_EQ | LT | LT_LT | LT_EQ | LT_EQ_EQ_GT | WILDCARD | STRUCT_KW
  | SCRIPT_KW | MODULE_KW | CONST_KW | USE_KW | AS_KW | LET_KW | MUT_KW | RETURN_KW | FUN_KW
  | TRUE_KW | FALSE_KW | MOVE_KW | WHILE_KW | IF_KW | ELSE_KW | BREAK_KW | CONTINUE_KW
  | ADDRESS_KW | INTEGER_NUMBER | BYTE_STRING | HEX_STRING | ERROR | IDENT | WHITESPACE
  | COMMENT | DIEM_ADDRESS | SOURCE_FILE | ADDRESS_DEF | ADDRESS_ITEM_LIST | MODULE_DEF
  | ADDRESS_IDENT | SCRIPT_DEF | FUNCTION_DEF | ITEM_LIST | NAME_REF | STRUCT
  | RECORD_FIELD_LIST | RECORD_FIELD | GENERIC_PARAM_LIST | TYPE_PARAM | TYPE_BOUND_LIST
  | TYPE_BOUND | PARAM_LIST | PARAM | RET_TYPE | EXPR | BLOCK_EXPR | DOT_EXPR | CALL_EXPR
  | ARG_LIST | RECORD_EXPR | RECORD_EXPR_FIELD_LIST | RECORD_EXPR_FIELD | LITERAL | PATH
  | PATH_SEGMENT | NAME | BIN_EXPR | PREFIX_EXPR | PATH_EXPR | PAREN_EXPR | EXPR_STMT
  | LET_STMT | REF_TYPE | PATH_TYPE | PAREN_PAT | TUPLE_PAT | RECORD_PAT
  | RECORD_PAT_FIELD_LIST | RECORD_PAT_FIELD | PATH_PAT | WILDCARD_PAT | REST_PAT | IDENT_PAT
  | ADDRESS_LIT | __LAST
  deriving DecidableEq, Repr, Inhabited

namespace Kind

/-- The declaration order of crates/parser/src/syntax_kind/generated.rs:5-126. -/
def all : List Kind := [
  .TOMBSTONE, .EOF, .COLON, .COLON_COLON, .SEMICOLON, .COMMA, .L_PAREN, .R_PAREN, .L_BRACE,
  .R_BRACE, .L_BRACK, .R_BRACK, .PLUS, .MINUS, .STAR, .SLASH, .MOD, .NUMSIGN, .ATSIGN, .DOT,
  .DOTDOT, .AMP, .AMP_AMP, .AMP_MUT, .CARET, .PIPE, .PIPE_PIPE, .BANG, .BANG_EQ, .EQ, .EQ_EQ,
  .EQ_EQ_GT, .GT, .GT_GT, .GT_EQ, .LT, .LT_LT, .LT_EQ, .LT_EQ_EQ_GT, .WILDCARD, .STRUCT_KW,
  .SCRIPT_KW, .MODULE_KW, .CONST_KW, .USE_KW, .AS_KW, .LET_KW, .MUT_KW, .RETURN_KW, .FUN_KW,
  .TRUE_KW, .FALSE_KW, .MOVE_KW, .WHILE_KW, .IF_KW, .ELSE_KW, .BREAK_KW, .CONTINUE_KW,
  .ADDRESS_KW, .INTEGER_NUMBER, .BYTE_STRING, .HEX_STRING, .ERROR, .IDENT, .WHITESPACE,
  .COMMENT, .DIEM_ADDRESS, .SOURCE_FILE, .ADDRESS_DEF, .ADDRESS_ITEM_LIST, .MODULE_DEF,
  .ADDRESS_IDENT, .SCRIPT_DEF, .FUNCTION_DEF, .ITEM_LIST, .NAME_REF, .STRUCT,
  .RECORD_FIELD_LIST, .RECORD_FIELD, .GENERIC_PARAM_LIST, .TYPE_PARAM, .TYPE_BOUND_LIST,
  .TYPE_BOUND, .PARAM_LIST, .PARAM, .RET_TYPE, .EXPR, .BLOCK_EXPR, .DOT_EXPR, .CALL_EXPR,
  .ARG_LIST, .RECORD_EXPR, .RECORD_EXPR_FIELD_LIST, .RECORD_EXPR_FIELD, .LITERAL, .PATH,
  .PATH_SEGMENT, .NAME, .BIN_EXPR, .PREFIX_EXPR, .PATH_EXPR, .PAREN_EXPR, .EXPR_STMT,
  .LET_STMT, .REF_TYPE, .PATH_TYPE, .PAREN_PAT, .TUPLE_PAT, .RECORD_PAT,
  .RECORD_PAT_FIELD_LIST, .RECORD_PAT_FIELD, .PATH_PAT, .WILDCARD_PAT, .REST_PAT, .IDENT_PAT,
  .ADDRESS_LIT, .__LAST]

/-- The derived `Debug` of `SyntaxKind` (syntax_kind/generated.rs:5): the name of the variant. -/
def debugName : Kind → String
  | .TOMBSTONE => "TOMBSTONE"
  | .EOF => "EOF"
  | .COLON => "COLON"
  | .COLON_COLON => "COLON_COLON"
  | .SEMICOLON => "SEMICOLON"
  | .COMMA => "COMMA"
  | .L_PAREN => "L_PAREN"
  | .R_PAREN => "R_PAREN"
  | .L_BRACE => "L_BRACE"
  | .R_BRACE => "R_BRACE"
  | .L_BRACK => "L_BRACK"
  | .R_BRACK => "R_BRACK"
  | .PLUS => "PLUS"
  | .MINUS => "MINUS"
  | .STAR => "STAR"
  | .SLASH => "SLASH"
  | .MOD => "MOD"
  | .NUMSIGN => "NUMSIGN"
  | .ATSIGN => "ATSIGN"
  | .DOT => "DOT"
  | .DOTDOT => "DOTDOT"
  | .AMP => "AMP"
  | .AMP_AMP => "AMP_AMP"
  | .AMP_MUT => "AMP_MUT"
  | .CARET => "CARET"
  | .PIPE => "PIPE"
  | .PIPE_PIPE => "PIPE_PIPE"
  | .BANG => "BANG"
  | .BANG_EQ => "BANG_EQ"
  | .EQ => "EQ"
  | .EQ_EQ => "EQ_EQ"
  | .EQ_EQ_GT => "EQ_EQ_GT"
  | .GT => "GT"
  | .GT_GT => "GT_GT"
  | .GT_EQ => "GT_EQ"
  | .LT => "LT"
  | .LT_LT => "LT_LT"
  | .LT_EQ => "LT_EQ"
  | .LT_EQ_EQ_GT => "LT_EQ_EQ_GT"
  | .WILDCARD => "WILDCARD"
  | .STRUCT_KW => "STRUCT_KW"
  | .SCRIPT_KW => "SCRIPT_KW"
  | .MODULE_KW => "MODULE_KW"
  | .CONST_KW => "CONST_KW"
  | .USE_KW => "USE_KW"
  | .AS_KW => "AS_KW"
  | .LET_KW => "LET_KW"
  | .MUT_KW => "MUT_KW"
  | .RETURN_KW => "RETURN_KW"
  | .FUN_KW => "FUN_KW"
  | .TRUE_KW => "TRUE_KW"
  | .FALSE_KW => "FALSE_KW"
  | .MOVE_KW => "MOVE_KW"
  | .WHILE_KW => "WHILE_KW"
  | .IF_KW => "IF_KW"
  | .ELSE_KW => "ELSE_KW"
  | .BREAK_KW => "BREAK_KW"
  | .CONTINUE_KW => "CONTINUE_KW"
  | .ADDRESS_KW => "ADDRESS_KW"
  | .INTEGER_NUMBER => "INTEGER_NUMBER"
  | .BYTE_STRING => "BYTE_STRING"
  | .HEX_STRING => "HEX_STRING"
  | .ERROR => "ERROR"
  | .IDENT => "IDENT"
  | .WHITESPACE => "WHITESPACE"
  | .COMMENT => "COMMENT"
  | .DIEM_ADDRESS => "DIEM_ADDRESS"
  | .SOURCE_FILE => "SOURCE_FILE"
  | .ADDRESS_DEF => "ADDRESS_DEF"
  | .ADDRESS_ITEM_LIST => "ADDRESS_ITEM_LIST"
  | .MODULE_DEF => "MODULE_DEF"
  | .ADDRESS_IDENT => "ADDRESS_IDENT"
  | .SCRIPT_DEF => "SCRIPT_DEF"
  | .FUNCTION_DEF => "FUNCTION_DEF"
  | .ITEM_LIST => "ITEM_LIST"
  | .NAME_REF => "NAME_REF"
  | .STRUCT => "STRUCT"
  | .RECORD_FIELD_LIST => "RECORD_FIELD_LIST"
  | .RECORD_FIELD => "RECORD_FIELD"
  | .GENERIC_PARAM_LIST => "GENERIC_PARAM_LIST"
  | .TYPE_PARAM => "TYPE_PARAM"
  | .TYPE_BOUND_LIST => "TYPE_BOUND_LIST"
  | .TYPE_BOUND => "TYPE_BOUND"
  | .PARAM_LIST => "PARAM_LIST"
  | .PARAM => "PARAM"
  | .RET_TYPE => "RET_TYPE"
  | .EXPR => "EXPR"
  | .BLOCK_EXPR => "BLOCK_EXPR"
  | .DOT_EXPR => "DOT_EXPR"
  | .CALL_EXPR => "CALL_EXPR"
  | .ARG_LIST => "ARG_LIST"
  | .RECORD_EXPR => "RECORD_EXPR"
  | .RECORD_EXPR_FIELD_LIST => "RECORD_EXPR_FIELD_LIST"
  | .RECORD_EXPR_FIELD => "RECORD_EXPR_FIELD"
  | .LITERAL => "LITERAL"
  | .PATH => "PATH"
  | .PATH_SEGMENT => "PATH_SEGMENT"
  | .NAME => "NAME"
  | .BIN_EXPR => "BIN_EXPR"
  | .PREFIX_EXPR => "PREFIX_EXPR"
  | .PATH_EXPR => "PATH_EXPR"
  | .PAREN_EXPR => "PAREN_EXPR"
  | .EXPR_STMT => "EXPR_STMT"
  | .LET_STMT => "LET_STMT"
  | .REF_TYPE => "REF_TYPE"
  | .PATH_TYPE => "PATH_TYPE"
  | .PAREN_PAT => "PAREN_PAT"
  | .TUPLE_PAT => "TUPLE_PAT"
  | .RECORD_PAT => "RECORD_PAT"
  | .RECORD_PAT_FIELD_LIST => "RECORD_PAT_FIELD_LIST"
  | .RECORD_PAT_FIELD => "RECORD_PAT_FIELD"
  | .PATH_PAT => "PATH_PAT"
  | .WILDCARD_PAT => "WILDCARD_PAT"
  | .REST_PAT => "REST_PAT"
  | .IDENT_PAT => "IDENT_PAT"
  | .ADDRESS_LIT => "ADDRESS_LIT"
  | .__LAST => "__LAST"

/-- `kind as u16` / `kind as usize`: the discriminant (crates/parser/src/syntax_kind.rs:13-17). -/
def toNat (k : Kind) : Nat := k.ctorIdx

/-- crates/parser/src/syntax_kind.rs:6-11, `From<u16> for SyntaxKind`: `none` is the failed
assertion.  The `transmute` is modelled by the position in the declaration order. -/
def ofNat? (d : Nat) : Option Kind :=
  if d ≤ toNat .__LAST then all[d]? else none

/-- crates/parser/src/syntax_kind.rs:20-25, `is_trivia`. -/
def isTrivia (k : Kind) : Bool := k == .WHITESPACE || k == .COMMENT

/-- crates/parser/src/syntax_kind/generated.rs:197-221, `from_keyword`. -/
def keywords : List (List Char × Kind) := [
  ("struct".toList, .STRUCT_KW),
  ("script".toList, .SCRIPT_KW),
  ("module".toList, .MODULE_KW),
  ("const".toList, .CONST_KW),
  ("use".toList, .USE_KW),
  ("as".toList, .AS_KW),
  ("let".toList, .LET_KW),
  ("mut".toList, .MUT_KW),
  ("return".toList, .RETURN_KW),
  ("fun".toList, .FUN_KW),
  ("true".toList, .TRUE_KW),
  ("false".toList, .FALSE_KW),
  ("move".toList, .MOVE_KW),
  ("while".toList, .WHILE_KW),
  ("if".toList, .IF_KW),
  ("else".toList, .ELSE_KW),
  ("break".toList, .BREAK_KW),
  ("continue".toList, .CONTINUE_KW),
  ("address".toList, .ADDRESS_KW)]

/-- crates/parser/src/syntax_kind/generated.rs:197-221, `from_keyword`: the `match` on the
string as a lookup in its table of arms. -/
def fromKeyword (ident : List Char) : Option Kind :=
  (keywords.find? (fun e => e.1 == ident)).map Prod.snd

end Kind

/-- crates/parser/src/token_set.rs:4-5, `struct TokenSet(u128)`: the 128-bit word as a number. -/
structure TokenSet where
  bits : Nat
  deriving DecidableEq, Repr

namespace TokenSet

/-- crates/parser/src/token_set.rs:29-31, `mask`.  The shift of a `u128` by 128 or more is a
panic (an overflow in a `const fn`); `mask_fits` shows that no kind reaches it. -/
def mask (k : Kind) : Nat := 1 <<< k.toNat

/-- crates/parser/src/token_set.rs:8, `EMPTY`. -/
def EMPTY : TokenSet := ⟨0⟩

/-- crates/parser/src/token_set.rs:10-18, `new`: the `while` loop as a left fold. -/
def new (kinds : List Kind) : TokenSet := ⟨kinds.foldl (fun res k => res ||| mask k) 0⟩

/-- crates/parser/src/token_set.rs:20-22, `union`. -/
def union (a b : TokenSet) : TokenSet := ⟨a.bits ||| b.bits⟩

/-- crates/parser/src/token_set.rs:24-26, `contains`. -/
def contains (a : TokenSet) (k : Kind) : Bool := (a.bits &&& mask k) != 0

end TokenSet

end Verif
