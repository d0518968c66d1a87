import Verif.Parser.Prog

set_option autoImplicit false

/-!
The grammar of `/repo/crates/parser/src/grammar.rs` and `/repo/crates/parser/src/grammar/`,
function by function.  Functions that are neither recursive nor loops are ordinary definitions;
the others are the cases of `body`.
-/

namespace Verif.Parser

open Kind

/-! parser.rs: derived operations. -/

def current : Prog Kind := .current .pure
def currentText : Prog Text := .currentText .pure
def nth (n : Nat) : Prog Kind := .nth n .pure
def doBump (kind : Kind) : Prog Unit := .doBump kind (.pure ())
def start : Prog Marker := .start .pure
def error (msg : String) : Prog Unit := .error msg (.pure ())
def call (f : Fn) : Prog f.Res := .call f .pure
def Marker.complete (m : Marker) (kind : Kind) : Prog Completed := .complete m kind .pure
def Marker.abandon (m : Marker) : Prog Unit := .abandon m (.pure ())
def Completed.precede (c : Completed) : Prog Marker := .precede c .pure

/-- `assert!`. -/
def assert (b : Bool) (what : String) : Prog Unit :=
  if b then .pure () else .panic (.assertion what)

/-- parser.rs:74-103, `nth_at`. -/
def nthAt (n : Nat) (kind : Kind) : Prog Bool := do
  let k ← nth n
  return k == kind

/-- parser.rs:70-72, `at`. -/
def at_ (kind : Kind) : Prog Bool := nthAt 0 kind

/-- parser.rs:106-118, `eat`. -/
def eat (kind : Kind) : Prog Bool := do
  if !(← at_ kind) then return false
  doBump kind
  return true

/-- parser.rs:143-145, `at_ts`. -/
def atTs (kinds : TokenSet) : Prog Bool := do
  return kinds.contains (← current)

/-- parser.rs:162-164, `bump`. -/
def bump (kind : Kind) : Prog Unit := do
  assert (← eat kind) "bump"

/-- parser.rs:167-174, `bump_any`. -/
def bumpAny : Prog Unit := do
  let kind ← current
  if kind == EOF then return ()
  doBump kind

/-- parser.rs:182-188, `bump_remap`. -/
def bumpRemap (kind : Kind) : Prog Unit := do
  if (← nth 0) == EOF then return ()
  doBump kind

/-- parser.rs:201-207, `expect`. -/
def expect (kind : Kind) : Prog Bool := do
  if ← eat kind then return true
  error ("expected " ++ kind.debugName)
  return false

/-- parser.rs:243-261, `err_recover`. -/
def errRecover (message : String) (recovery : TokenSet) : Prog Unit := do
  let cur ← current
  if cur == L_BRACE || cur == R_BRACE then
    error message
    return ()
  if ← atTs recovery then
    error message
    return ()
  let m ← start
  error message
  bumpAny
  let _ ← m.complete ERROR

/-- parser.rs:210-222, `err_and_bump`. -/
def errAndBump (message : String) : Prog Unit := errRecover message TokenSet.EMPTY

/-- parser.rs:224-240, `error_and_skip_until`. -/
def errorAndSkipUntil (message : String) (endTokens : TokenSet) : Prog Completed := do
  let endTokens := endTokens.union (TokenSet.new [EOF])
  let m ← start
  error message
  call (.skipUntil endTokens)
  m.complete ERROR

/-- parser.rs:233-238, the loop of `error_and_skip_until`. -/
def skipUntilBody (endTokens : TokenSet) : Prog Unit := do
  if endTokens.contains (← current) then return ()
  bumpAny
  call (.skipUntil endTokens)

/-- The condition `!(p.at(a) || p.at(b))`, equal to `!p.at(a) && !p.at(b)`, of the loops. -/
def neither (a b : Kind) : Prog Bool := do
  if ← at_ a then return false
  return !(← at_ b)

/-! Token sets. -/

/-- items.rs:12-13 -/
def TOP_LEVEL_ITEM_RECOVERY_SET : TokenSet := TokenSet.new [ADDRESS_KW, MODULE_KW, SCRIPT_KW]
/-- items.rs:15-25 -/
def ITEM_RECOVERY_SET : TokenSet := TokenSet.new [STRUCT_KW, MODULE_KW, FUN_KW, SEMICOLON]
/-- paths.rs:7 -/
def PATH_FIRST : TokenSet := TokenSet.new [IDENT]
/-- types.rs:7, also `PARAM_FIRST` (params.rs:7) -/
def TYPE_FIRST : TokenSet := PATH_FIRST.union (TokenSet.new [AMP])
/-- types.rs:9-13 -/
def TYPE_RECOVERY_SET : TokenSet := TokenSet.new [R_PAREN, COMMA]
/-- expressions/atom.rs:20-21 -/
def EXPR_STMT_RECOVERY : TokenSet := TokenSet.new [PLUS, MINUS, STAR, SLASH, SEMICOLON, R_PAREN]
/-- expressions/atom.rs:23-32 -/
def LITERAL_FIRST : TokenSet :=
  TokenSet.new [TRUE_KW, FALSE_KW, INTEGER_NUMBER, HEX_STRING, BYTE_STRING, ATSIGN]
/-- patterns.rs:3-14 -/
def PATTERN_FIRST : TokenSet :=
  (LITERAL_FIRST.union PATH_FIRST).union
    (TokenSet.new [MUT_KW, L_PAREN, L_BRACK, AMP, WILDCARD, MINUS])
/-- patterns.rs:68-69 -/
def PAT_RECOVERY_SET : TokenSet := TokenSet.new [LET_KW, IF_KW, WHILE_KW, R_PAREN, COMMA, EQ]

/-! grammar.rs: names. -/

/-- grammar.rs:43-51, `name_r`. -/
def nameR (recovery : TokenSet) : Prog Unit := do
  if ← at_ IDENT then
    let m ← start
    bump IDENT
    let _ ← m.complete NAME
  else
    errRecover "expected a name" recovery

/-- grammar.rs:39-41, `name`. -/
def name : Prog Unit := nameR TokenSet.EMPTY

/-- grammar.rs:53-61, `name_ref`. -/
def nameRef : Prog Unit := do
  if ← at_ IDENT then
    let m ← start
    bump IDENT
    let _ ← m.complete NAME_REF
  else
    errAndBump "expected identifier"

/-! paths.rs.  The `Mode` argument is never looked at and left out. -/

/-- paths.rs:94-101, `is_path_start`. -/
def isPathStart : Prog Bool := do
  return (← current) == IDENT

/-- paths.rs:47-92, `path_segment`. -/
def pathSegment (first : Bool) : Prog Unit := do
  let m ← start
  let mut empty := true
  if first then
    let _ ← eat COLON_COLON
    empty := false
  if (← current) == IDENT then
    nameRef
  else
    errRecover "expected identifier" ITEM_RECOVERY_SET
    if empty then
      m.abandon
      return ()
  let _ ← m.complete PATH_SEGMENT

/-- paths.rs:25-30, `path` (`type_path` and `expr_path`, paths.rs:17-23). -/
def path : Prog Unit := do
  let m ← start
  pathSegment true
  let qual ← m.complete PATH
  call (.pathLoop qual)

/-- paths.rs:32-45, `path_for_qualifier`. -/
def pathLoopBody (qual : Completed) : Prog Unit := do
  let k2 ← nth 2
  let useTree := k2 == STAR || k2 == L_BRACE
  if (← at_ COLON_COLON) && !useTree then
    let m ← qual.precede
    bump COLON_COLON
    pathSegment false
    let qual ← m.complete PATH
    call (.pathLoop qual)

/-! types.rs. -/

/-- types.rs:32-39, `ref_type`. -/
def refType : Prog Unit := do
  assert (← at_ AMP) "ref_type"
  let m ← start
  bump AMP
  let _ ← eat MUT_KW
  call .type_
  let _ ← m.complete REF_TYPE

/-- types.rs:41-56, `path_type`. -/
def pathType : Prog Unit := do
  assert (← isPathStart) "path_type"
  let m ← start
  path
  let _ ← m.complete PATH_TYPE

/-- types.rs:21-30, `type_`. -/
def typeBody : Prog Unit := do
  if (← current) == AMP then refType
  else if ← isPathStart then pathType
  else errRecover "expected type" TYPE_RECOVERY_SET

/-- types.rs:15-19, `ascription`. -/
def ascription : Prog Unit := do
  assert (← at_ COLON) "ascription"
  bump COLON
  call .type_

/-! generic_params.rs. -/

/-- generic_params.rs:77-95, `type_bound`. -/
def typeBound : Prog Bool := do
  let m ← start
  if (← current) == IDENT then
    name
  else
    m.abandon
    return false
  let _ ← m.complete TYPE_BOUND
  return true

/-- generic_params.rs:69-73, the loop of `bounds_without_colon_m`. -/
def boundsLoopBody : Prog Unit := do
  if ← typeBound then
    if ← eat PLUS then
      call .boundsLoop

/-- generic_params.rs:57-75, `bounds`, `bounds_without_colon`, `bounds_without_colon_m`. -/
def bounds : Prog Unit := do
  assert (← at_ COLON) "bounds"
  bump COLON
  let m ← start
  call .boundsLoop
  let _ ← m.complete TYPE_BOUND_LIST

/-- generic_params.rs:40-53, `type_param`. -/
def typeParam (m : Marker) : Prog Unit := do
  assert (← at_ IDENT) "type_param"
  name
  if ← at_ COLON then
    bounds
  let _ ← m.complete TYPE_PARAM

/-- generic_params.rs:27-36, `generic_param`. -/
def genericParam : Prog Unit := do
  let m ← start
  if (← current) == IDENT then typeParam m
  else
    m.abandon
    errAndBump "expected type parameter"

/-- generic_params.rs:17-22, the loop of `generic_param_list`. -/
def genericParamLoopBody : Prog Unit := do
  if ← neither EOF GT then
    genericParam
    if !(← at_ GT) then
      if !(← expect COMMA) then return ()
    call .genericParamLoop

/-- generic_params.rs:12-25, `generic_param_list`. -/
def genericParamList : Prog Unit := do
  assert (← at_ LT) "generic_param_list"
  let m ← start
  bump LT
  call .genericParamLoop
  let _ ← expect GT
  let _ ← m.complete GENERIC_PARAM_LIST

/-- generic_params.rs:4-8, `opt_generic_param_list`. -/
def optGenericParamList : Prog Unit := do
  if ← at_ LT then genericParamList

/-! params.rs. -/

/-- params.rs:45-55, `param`. -/
def param (m : Marker) : Prog Unit := do
  name
  if ← at_ COLON then
    ascription
  else
    error "missing type for function parameter"
  let _ ← m.complete PARAM

/-- params.rs:14-35, the loop of `param_list` (`param_marker` is `None` throughout). -/
def paramLoopBody : Prog Unit := do
  if ← neither EOF R_PAREN then
    let m ← start
    if !(← atTs TYPE_FIRST) then
      error "expected value parameter"
      m.abandon
      return ()
    param m
    if !(← at_ R_PAREN) then
      let _ ← expect COMMA
    call .paramLoop

/-- params.rs:9-43, `param_list`. -/
def paramList : Prog Unit := do
  let m ← start
  bump L_PAREN
  call .paramLoop
  let _ ← expect R_PAREN
  let _ ← m.complete PARAM_LIST

/-! patterns.rs. -/

/-- patterns.rs:210-215, `ident_pat`. -/
def identPat : Prog Unit := do
  let m ← start
  let _ ← eat MUT_KW
  name
  let _ ← m.complete IDENT_PAT

/-- patterns.rs:184-189, `rest_pat`. -/
def restPat : Prog Unit := do
  assert (← at_ DOTDOT) "rest_pat"
  let m ← start
  bump DOTDOT
  let _ ← m.complete REST_PAT

/-- patterns.rs:151-156, `wildcard_pat`. -/
def wildcardPat : Prog Unit := do
  assert (← at_ WILDCARD) "wildcard_pat"
  let m ← start
  bump WILDCARD
  let _ ← m.complete WILDCARD_PAT

/-- patterns.rs:30-43, the loop of `tuple_pat`. -/
def tuplePatLoopBody (hasComma hasPat hasRest : Bool) : Prog (Bool × Bool × Bool) := do
  if ← neither EOF R_PAREN then
    if !(← atTs PATTERN_FIRST) then
      error "expected a pattern"
      return (hasComma, true, hasRest)
    let atRest ← at_ DOTDOT
    let hasRest := hasRest || atRest
    call .pattern
    if !(← at_ R_PAREN) then
      let _ ← expect COMMA
      call (.tuplePatLoop true true hasRest)
    else
      call (.tuplePatLoop hasComma true hasRest)
  else return (hasComma, hasPat, hasRest)

/-- patterns.rs:23-47, `tuple_pat`. -/
def tuplePat : Prog Unit := do
  assert (← at_ L_PAREN) "tuple_pat"
  let m ← start
  bump L_PAREN
  let (hasComma, hasPat, hasRest) ← call (.tuplePatLoop false false false)
  let _ ← expect R_PAREN
  let _ ← m.complete (if !hasComma && !hasRest && hasPat then PAREN_PAT else TUPLE_PAT)

/-- grammar.rs:81-89, `error_block`. -/
def errorBlock (message : String) : Prog Unit := do
  assert (← at_ L_BRACE) "error_block"
  let m ← start
  error message
  bump L_BRACE
  call .exprBlockLoop
  let _ ← eat R_BRACE
  let _ ← m.complete ERROR

/-- patterns.rs:121-139, a field of a record pattern. -/
def recordPatField : Prog Unit := do
  let m ← start
  if (← current) == IDENT then
    if (← nth 1) == COLON then
      nameRef
      bump COLON
      call .pattern
    else identPat
  else identPat
  let _ ← m.complete RECORD_PAT_FIELD

/-- patterns.rs:116-140, the body of the loop of `record_pat_field_list`. -/
def recordPatEntry : Prog Unit := do
  let cur ← current
  if cur == DOT then
    if ← at_ DOTDOT then bump DOTDOT
    else recordPatField
  else if cur == L_BRACE then errorBlock "expected ident"
  else recordPatField

/-- patterns.rs:115-144, the loop of `record_pat_field_list`. -/
def recordPatLoopBody : Prog Unit := do
  if ← neither EOF R_BRACE then
    recordPatEntry
    if !(← at_ R_BRACE) then
      let _ ← expect COMMA
    call .recordPatLoop

/-- patterns.rs:111-147, `record_pat_field_list`. -/
def recordPatFieldList : Prog Unit := do
  assert (← at_ L_BRACE) "record_pat_field_list"
  let m ← start
  bump L_BRACE
  call .recordPatLoop
  let _ ← expect R_BRACE
  let _ ← m.complete RECORD_PAT_FIELD_LIST

/-- patterns.rs:76-88, `path_pat`. -/
def pathPat : Prog Unit := do
  assert (← isPathStart) "path_pat"
  let m ← start
  path
  if (← current) == L_BRACE then
    recordPatFieldList
    let _ ← m.complete RECORD_PAT
  else
    let _ ← m.complete PATH_PAT

/-- patterns.rs:59-65, the arms of `pattern` after the one for `..`. -/
def patternRest (cur : Kind) : Prog Unit := do
  if cur == WILDCARD then wildcardPat
  else if cur == L_PAREN then tuplePat
  else errRecover "expected pattern" PAT_RECOVERY_SET

/-- patterns.rs:49-66, `pattern`. -/
def patternBody : Prog Unit := do
  let cur ← current
  if cur == MUT_KW then identPat
  else if cur == IDENT then
    if (← nth 1) == L_BRACE then pathPat else identPat
  else if cur == DOT then
    if ← at_ DOTDOT then restPat else patternRest cur
  else patternRest cur

/-! expressions/atom.rs. -/

/-- atom.rs:34-43, `bump_address`. -/
def bumpAddress : Prog Bool := do
  if (← current) == IDENT then
    bump IDENT
    return true
  else if (← current) == INTEGER_NUMBER then
    if Lexer.startsWith (← currentText) "0x" then
      bumpRemap DIEM_ADDRESS
      return true
    else return false
  else return false

/-- atom.rs:45-53, `address_lit`. -/
def addressLit : Prog Completed := do
  assert (← at_ ATSIGN) "address_lit"
  let m ← start
  bump ATSIGN
  if !(← bumpAddress) then
    let _ ← errorAndSkipUntil "expected address literal" EXPR_STMT_RECOVERY
  m.complete ADDRESS_LIT

/-- atom.rs:55-67, `literal`. -/
def literal : Prog (Option Completed) := do
  if !(← atTs LITERAL_FIRST) then return none
  let m ← start
  if (← current) == ATSIGN then
    let _ ← addressLit
  else bumpAny
  return some (← m.complete LITERAL)

/-- expressions.rs:17-19, `expr`. -/
def expr : Prog (Option Completed) := call (.exprBp 1)

/-- atom.rs:149-169, the loop of `paren_expr`. -/
def parenLoopBody : Prog Bool := do
  if ← neither EOF R_PAREN then
    let e ← expr
    if e.isNone then
      let _ ← errorAndSkipUntil "expected expression" (TokenSet.new [R_PAREN])
      return false
    call .parenLoop
  else return true

/-- atom.rs:144-174, `paren_expr`. -/
def parenExpr : Prog Completed := do
  assert (← at_ L_PAREN) "paren_expr"
  let m ← start
  let _ ← expect L_PAREN
  if !(← (call .parenLoop : Prog Bool)) then
    return ← m.complete PAREN_EXPR
  let _ ← expect R_PAREN
  m.complete PAREN_EXPR

/-- grammar.rs:33-37, the loop of `block_contents`. -/
def blockLoopBody : Prog Unit := do
  if ← neither R_BRACE EOF then
    call (.stmt .optional)
    call .blockLoop

/-- grammar.rs:24-31, `block_expr_unchecked`. -/
def blockExprUnchecked : Prog Completed := do
  assert (← at_ L_BRACE) "block_expr_unchecked"
  let m ← start
  bump L_BRACE
  call .blockLoop
  let _ ← expect R_BRACE
  m.complete BLOCK_EXPR

/-- grammar.rs:16-22, `block_expr`. -/
def blockExpr : Prog Unit := do
  if !(← at_ L_BRACE) then
    error "expected a block"
    return ()
  let _ ← blockExprUnchecked

/-- expressions.rs:224-250, a field of `record_expr_field_list`. -/
def recordExprField : Prog Unit := do
  let m ← start
  let cur ← current
  if cur == IDENT || cur == INTEGER_NUMBER then
    if ← nthAt 1 COLON then
      nameRef
      let _ ← expect COLON
    let _ ← expr
    let _ ← m.complete RECORD_EXPR_FIELD
  else if cur == L_BRACE then
    errorBlock "expected a field"
    m.abandon
  else
    errAndBump "expected identifier"
    m.abandon

/-- expressions.rs:222-254, the loop of `record_expr_field_list`. -/
def recordExprLoopBody : Prog Unit := do
  if ← neither EOF R_BRACE then
    recordExprField
    if !(← at_ R_BRACE) then
      let _ ← expect COMMA
    call .recordExprLoop

/-- expressions.rs:218-257, `record_expr_field_list`. -/
def recordExprFieldList : Prog Unit := do
  assert (← at_ L_BRACE) "record_expr_field_list"
  let m ← start
  bump L_BRACE
  call .recordExprLoop
  let _ ← expect R_BRACE
  let _ ← m.complete RECORD_EXPR_FIELD_LIST

/-- atom.rs:115-136, `path_expr`. -/
def pathExpr : Prog Completed := do
  assert (← isPathStart) "path_expr"
  let m ← start
  path
  if (← current) == L_BRACE then
    recordExprFieldList
    m.complete RECORD_EXPR
  else
    m.complete PATH_EXPR

/-- atom.rs:96-113, `atom_expr`. -/
def atomExpr : Prog (Option Completed) := do
  if let some m ← literal then return some m
  let cur ← current
  if cur == IDENT then return some (← pathExpr)
  if cur == L_PAREN then return some (← parenExpr)
  else if cur == L_BRACE then return some (← blockExprUnchecked)
  else return some (← errorAndSkipUntil "expected expression" (TokenSet.new [SEMICOLON, R_PAREN]))

/-! expressions.rs. -/

/-- expressions.rs:170-209, `current_op`. -/
def opTable : Kind → Nat × Kind
  | .PIPE => (6, PIPE)
  | .GT => (5, GT)
  | .EQ => (1, EQ)
  | .LT => (5, LT)
  | .PLUS => (10, PLUS)
  | .CARET => (7, CARET)
  | .MOD => (11, MOD)
  | .AMP => (8, AMP)
  | .SLASH => (11, SLASH)
  | .STAR => (11, STAR)
  | .MINUS => (10, MINUS)
  | _ => (0, ATSIGN)

/-- expressions.rs:170-209, `current_op`. -/
def currentOp : Prog (Nat × Kind) := do
  return opTable (← current)

/-- expressions.rs:76-88, the loop of `arg_list`. -/
def argLoopBody : Prog Unit := do
  if ← neither R_PAREN EOF then
    let e ← expr
    if e.isNone then return ()
    if !(← at_ R_PAREN) then
      if !(← expect COMMA) then return ()
    call .argLoop

/-- expressions.rs:72-91, `arg_list`. -/
def argList : Prog Unit := do
  assert (← at_ L_PAREN) "arg_list"
  let m ← start
  bump L_PAREN
  call .argLoop
  let _ ← eat R_PAREN
  let _ ← m.complete ARG_LIST

/-- expressions.rs:53-58, `call_expr`. -/
def callExpr (lhs : Completed) : Prog Completed := do
  assert (← at_ L_PAREN) "call_expr"
  let m ← lhs.precede
  argList
  m.complete CALL_EXPR

/-- expressions.rs:60-70, `field_expr`. -/
def fieldExpr (lhs : Completed) : Prog Completed := do
  assert (← at_ DOT) "field_expr"
  let m ← lhs.precede
  bump DOT
  if ← at_ IDENT then nameRef
  else error "expected field name"
  m.complete DOT_EXPR

/-- expressions.rs:42-51, `postfix_expr`. -/
def postfixLoopBody (lhs : Completed) : Prog Completed := do
  let cur ← current
  if cur == L_PAREN then
    let lhs ← callExpr lhs
    call (.postfixLoop lhs)
  else if cur == DOT then
    let lhs ← fieldExpr lhs
    call (.postfixLoop lhs)
  else return lhs

/-- expressions.rs:93-109, `lhs`. -/
def lhsExpr : Prog (Option Completed) := do
  let cur ← current
  if cur == STAR || cur == BANG || cur == MINUS then
    let m ← start
    bumpAny
    let _ ← (call (.exprBp 255) : Prog (Option Completed))
    return some (← m.complete PREFIX_EXPR)
  else
    match ← atomExpr with
    | none => return none
    | some lhs => return some (← (call (.postfixLoop lhs) : Prog Completed))

/-- expressions.rs:24-38, the loop of `expr_bp`. -/
def exprBpLoopBody (bp : Nat) (lhs : Completed) : Prog Completed := do
  let (opBp, op) ← currentOp
  if opBp < bp then return lhs
  let m ← lhs.precede
  bump op
  let _ ← (call (.exprBp (opBp + 1)) : Prog (Option Completed))
  let lhs ← m.complete BIN_EXPR
  call (.exprBpLoop bp lhs)

/-- expressions.rs:22-40, `expr_bp`. -/
def exprBpBody (bp : Nat) : Prog (Option Completed) := do
  match ← lhsExpr with
  | none => return none
  | some lhs => return some (← (call (.exprBpLoop bp lhs) : Prog Completed))

/-- expressions.rs:130-140 and 151-161, the end of a statement. -/
def semi (withSemi : StmtWithSemi) : Prog Unit := do
  match withSemi with
  | .yes => let _ ← expect SEMICOLON
  | .no => return ()
  | .optional =>
    if ← at_ SEMICOLON then
      let _ ← eat SEMICOLON

/-- expressions.rs:118-142, `let_stmt`. -/
def letStmt (m : Marker) (withSemi : StmtWithSemi) : Prog Unit := do
  assert (← at_ LET_KW) "let_stmt"
  bump LET_KW
  call .pattern
  if ← at_ COLON then ascription
  if ← eat EQ then
    let _ ← expr
  semi withSemi
  let _ ← m.complete LET_STMT

/-- expressions.rs:144-164, `stmt`. -/
def stmtBody (withSemi : StmtWithSemi) : Prog Unit := do
  let m ← start
  if ← at_ LET_KW then
    letStmt m withSemi
    return ()
  let _ ← expr
  semi withSemi
  let _ ← m.complete EXPR_STMT

/-- expressions.rs:259-267, `expr_block_contents`. -/
def exprBlockLoopBody : Prog Unit := do
  if ← neither EOF R_BRACE then
    if ← at_ SEMICOLON then
      bump SEMICOLON
      call .exprBlockLoop
    else
      call (.stmt .yes)
      call .exprBlockLoop

/-! items/adt.rs. -/

/-- adt.rs:59-70, `record_field`. -/
def recordField : Prog Unit := do
  let m ← start
  if ← at_ IDENT then
    name
    let _ ← expect COLON
    call .type_
    let _ ← m.complete RECORD_FIELD
  else
    m.abandon
    errAndBump "expected field declaration"

/-- adt.rs:46-55, the loop of `record_field_list`. -/
def recordFieldLoopBody : Prog Unit := do
  if ← neither R_BRACE EOF then
    recordField
    if !(← at_ R_BRACE) then
      let _ ← expect COMMA
    call .recordFieldLoop

/-- adt.rs:42-57, `record_field_list`. -/
def recordFieldList : Prog Unit := do
  assert (← at_ L_BRACE) "record_field_list"
  let m ← start
  bump L_BRACE
  call .recordFieldLoop
  let _ ← expect R_BRACE
  let _ ← m.complete RECORD_FIELD_LIST

/-- adt.rs:4-38, `struct_`. -/
def structDef (m : Marker) : Prog Unit := do
  bump STRUCT_KW
  nameR ITEM_RECOVERY_SET
  optGenericParamList
  let cur ← current
  if cur == L_BRACE then recordFieldList
  else if cur == SEMICOLON then bump SEMICOLON
  else error "expected `;` or `{`"
  let _ ← m.complete STRUCT

/-! items.rs. -/

/-- items.rs:168-178, `opt_ret_type` (its result is not used). -/
def optRetType : Prog Unit := do
  if ← at_ COLON then
    let m ← start
    bump COLON
    call .type_
    let _ ← m.complete RET_TYPE

/-- items.rs:147-166, `function_def`. -/
def functionDef (m : Marker) : Prog Unit := do
  assert (← at_ FUN_KW) "function_def"
  bump FUN_KW
  nameR ITEM_RECOVERY_SET
  if ← at_ L_PAREN then paramList
  else error "expected function arguments"
  optRetType
  blockExpr
  let _ ← m.complete FUNCTION_DEF

/-- items.rs:135-145, `opt_item`; it never returns `Err`. -/
def optItem (m : Marker) : Prog Unit := do
  let cur ← current
  if cur == FUN_KW then functionDef m
  else if cur == STRUCT_KW then structDef m
  else
    error "expected an item"
    let _ ← m.complete ERROR

/-- items.rs:105-132, `item`.  The part after `opt_item` returned `Err` is never reached. -/
def item : Prog Unit := do
  let m ← start
  optItem m
  if ← at_ SEMICOLON then
    errAndBump "expected item, found `;`\nconsider removing this semicolon"

/-- items.rs:98-100, the loop of `item_list`. -/
def itemLoopBody : Prog Unit := do
  if ← neither R_BRACE EOF then
    item
    call .itemLoop

/-- items.rs:94-103, `item_list`. -/
def itemList : Prog Unit := do
  assert (← at_ L_BRACE) "item_list"
  let m ← start
  bump L_BRACE
  call .itemLoop
  let _ ← expect R_BRACE
  let _ ← m.complete ITEM_LIST

/-- items.rs:55-61, `address_ident_r`. -/
def addressIdentR (recoveryTokens : TokenSet) : Prog Unit := do
  let m ← start
  if !(← bumpAddress) then
    let _ ← errorAndSkipUntil "expected valid address" recoveryTokens
  let _ ← m.complete ADDRESS_IDENT

/-- items.rs:74-78 and 47-51, the body of a module or script. -/
def itemListOrSemi : Prog Unit := do
  if ← at_ L_BRACE then itemList
  else if !(← eat SEMICOLON) then
    error "expected `;` or `{`"

/-- items.rs:63-80, `module`. -/
def moduleDef : Prog Unit := do
  let m ← start
  assert (← at_ MODULE_KW) "module"
  bump MODULE_KW
  if ← nthAt 1 COLON_COLON then
    addressIdentR (TokenSet.new [COLON_COLON])
    bump COLON_COLON
  name
  itemListOrSemi
  let _ ← m.complete MODULE_DEF

/-- items.rs:87-89, the loop of `address_item_list`. -/
def addressItemLoopBody : Prog Unit := do
  if ← neither R_BRACE EOF then
    moduleDef
    call .addressItemLoop

/-- items.rs:82-92, `address_item_list`. -/
def addressItemList : Prog Unit := do
  assert (← at_ L_BRACE) "address_item_list"
  let m ← start
  bump L_BRACE
  call .addressItemLoop
  let _ ← expect R_BRACE
  let _ ← m.complete ADDRESS_ITEM_LIST

/-- items.rs:27-41, `address`. -/
def addressDef : Prog Unit := do
  let m ← start
  assert (← eat ADDRESS_KW) "address"
  addressIdentR (TOP_LEVEL_ITEM_RECOVERY_SET.union (TokenSet.new [L_BRACE]))
  if ← at_ L_BRACE then addressItemList
  else error "expected `{`"
  let _ ← m.complete ADDRESS_DEF

/-- items.rs:43-53, `script`. -/
def scriptDef : Prog Unit := do
  let m ← start
  assert (← eat SCRIPT_KW) "script"
  itemListOrSemi
  let _ ← m.complete SCRIPT_DEF

/-- grammar.rs:65-77, the loop of `root`. -/
def rootLoopBody : Prog Unit := do
  if !(← at_ EOF) then
    if ← at_ MODULE_KW then moduleDef
    else if ← at_ SCRIPT_KW then scriptDef
    else if ← at_ ADDRESS_KW then addressDef
    else if (← current).isTrivia then bumpAny
    else error "expected module or script"
    call .rootLoop

/-- grammar.rs:63-79, `root`. -/
def root : Prog Unit := do
  let m ← start
  call .rootLoop
  let _ ← m.complete SOURCE_FILE

/-- The bodies of the loops and recursive functions. -/
def body : (f : Fn) → Prog f.Res
  | .skipUntil ts => skipUntilBody ts
  | .rootLoop => rootLoopBody
  | .addressItemLoop => addressItemLoopBody
  | .itemLoop => itemLoopBody
  | .recordFieldLoop => recordFieldLoopBody
  | .paramLoop => paramLoopBody
  | .type_ => typeBody
  | .pathLoop qual => pathLoopBody qual
  | .genericParamLoop => genericParamLoopBody
  | .boundsLoop => boundsLoopBody
  | .pattern => patternBody
  | .tuplePatLoop a b c => tuplePatLoopBody a b c
  | .recordPatLoop => recordPatLoopBody
  | .blockLoop => blockLoopBody
  | .exprBlockLoop => exprBlockLoopBody
  | .stmt s => stmtBody s
  | .exprBp bp => exprBpBody bp
  | .exprBpLoop bp lhs => exprBpLoopBody bp lhs
  | .postfixLoop lhs => postfixLoopBody lhs
  | .argLoop => argLoopBody
  | .recordExprLoop => recordExprLoopBody
  | .parenLoop => parenLoopBody

end Verif.Parser
