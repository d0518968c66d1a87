import Verif.Parser.Sink
import Verif.Parser.Spec

set_option autoImplicit false

/-!
Model of the typed syntax classes: `/repo/crates/syntax/src/ast.rs`, the generated
`/repo/crates/syntax/src/ast/nodes.rs`, and `Parse` of `/repo/crates/syntax/src/lib.rs`.
-/

namespace Verif.Ast

open Parser

/-- `SyntaxNode` (rowan, external): kind, offset in the file and children.  Simplification: the pointer to
the parent is left out; two different nodes of a file with text differ in kind, offset or children. -/
structure SyntaxNode where
  kind : Kind
  offset : Nat
  kids : Green
  deriving DecidableEq, Repr

/-- `SyntaxToken` (rowan, external). -/
structure SyntaxToken where
  kind : Kind
  offset : Nat
  text : Text
  deriving DecidableEq, Repr

/-- `SyntaxElement` (rowan, external). -/
inductive Element where
  | node (n : SyntaxNode)
  | token (t : SyntaxToken)
  deriving DecidableEq, Repr

/-- The elements of a sequence that starts at `off`. -/
def elements (off : Nat) : Green → List Element
  | .nil => []
  | .leaf init k t => elements off init ++ [.token ⟨k, off + byteLen init.text, t⟩]
  | .node init k kids => elements off init ++ [.node ⟨k, off + byteLen init.text, kids⟩]

/-- `SyntaxNode::children_with_tokens` (rowan, external). -/
def SyntaxNode.childrenWithTokens (n : SyntaxNode) : List Element := elements n.offset n.kids

/-- `NodeOrToken::into_node` (rowan, external). -/
def Element.intoNode : Element → Option SyntaxNode
  | .node n => some n
  | .token _ => none

/-- `NodeOrToken::into_token` (rowan, external). -/
def Element.intoToken : Element → Option SyntaxToken
  | .node _ => none
  | .token t => some t

/-- `SyntaxNode::children` (rowan, external). -/
def SyntaxNode.children (n : SyntaxNode) : List SyntaxNode := n.childrenWithTokens.filterMap Element.intoNode

/-- ast.rs:19-41, `AstNode`. -/
class AstNode (α : Type) where
  canCast : Kind → Bool
  cast : SyntaxNode → Option α
  syn : α → SyntaxNode

/-- nodes.rs:5-9, `SourceFile`. -/
structure SourceFile where
  syn : SyntaxNode
  deriving DecidableEq, Repr

/-- nodes.rs:12-15, `ScriptDef`. -/
structure ScriptDef where
  syn : SyntaxNode
  deriving DecidableEq, Repr

/-- nodes.rs:21-24, `FunctionDef`. -/
structure FunctionDef where
  syn : SyntaxNode
  deriving DecidableEq, Repr

/-- nodes.rs:34-37, `ExprStmt`. -/
structure ExprStmt where
  syn : SyntaxNode
  deriving DecidableEq, Repr

/-- nodes.rs:42-45, `BinExpr`. -/
structure BinExpr where
  syn : SyntaxNode
  deriving DecidableEq, Repr

/-- nodes.rs:55-58, `Literal`. -/
structure Literal where
  syn : SyntaxNode
  deriving DecidableEq, Repr

/-- nodes.rs:63-67, `Expr`. -/
inductive Expr where
  | binExpr (e : BinExpr)
  | literal (e : Literal)
  deriving DecidableEq, Repr

/-- nodes.rs:68-78. -/
instance : AstNode SourceFile where
  canCast kind := kind == .SOURCE_FILE
  cast s := if s.kind == .SOURCE_FILE then some ⟨s⟩ else none
  syn := SourceFile.syn

/-- nodes.rs:79-89. -/
instance : AstNode ScriptDef where
  canCast kind := kind == .SCRIPT_DEF
  cast s := if s.kind == .SCRIPT_DEF then some ⟨s⟩ else none
  syn := ScriptDef.syn

/-- nodes.rs:90-100. -/
instance : AstNode FunctionDef where
  canCast kind := kind == .FUNCTION_DEF
  cast s := if s.kind == .FUNCTION_DEF then some ⟨s⟩ else none
  syn := FunctionDef.syn

/-- nodes.rs:101-111. -/
instance : AstNode ExprStmt where
  canCast kind := kind == .EXPR_STMT
  cast s := if s.kind == .EXPR_STMT then some ⟨s⟩ else none
  syn := ExprStmt.syn

/-- nodes.rs:112-122. -/
instance : AstNode BinExpr where
  canCast kind := kind == .BIN_EXPR
  cast s := if s.kind == .BIN_EXPR then some ⟨s⟩ else none
  syn := BinExpr.syn

/-- nodes.rs:123-133. -/
instance : AstNode Literal where
  canCast kind := kind == .LITERAL
  cast s := if s.kind == .LITERAL then some ⟨s⟩ else none
  syn := Literal.syn

/-- nodes.rs:140-156. -/
instance : AstNode Expr where
  canCast kind := match kind with
    | .BIN_EXPR => true
    | .LITERAL => true
    | _ => false
  cast s := match s.kind with
    | .BIN_EXPR => some (.binExpr ⟨s⟩)
    | .LITERAL => some (.literal ⟨s⟩)
    | _ => none
  syn
    | .binExpr it => it.syn
    | .literal it => it.syn

/-- ast.rs:83-85, `support::child`. -/
def child (α : Type) [AstNode α] (parent : SyntaxNode) : Option α := parent.children.findSome? AstNode.cast

/-- ast.rs:73-78, the loop of a consumer of `AstChildren::next`: each step goes on to the next child that casts. -/
def astChildrenFrom (α : Type) [AstNode α] : List SyntaxNode → List α
  | [] => []
  | n :: ns =>
    match AstNode.cast n with
    | some a => a :: astChildrenFrom α ns
    | none => astChildrenFrom α ns

/-- ast.rs:87-89, `support::children`, run to the end. -/
def children (α : Type) [AstNode α] (parent : SyntaxNode) : List α := astChildrenFrom α parent.children

/-- ast.rs:91-93, `support::token`. -/
def token (parent : SyntaxNode) (kind : Kind) : Option SyntaxToken :=
  (parent.childrenWithTokens.filterMap Element.intoToken).find? fun it => it.kind == kind

/-- nodes.rs:10. -/
def SourceFile.scriptDefs (n : SourceFile) : List ScriptDef := children ScriptDef n.syn
/-- nodes.rs:17. -/
def ScriptDef.lBraceToken (n : ScriptDef) : Option SyntaxToken := token n.syn .L_BRACE
/-- nodes.rs:18. -/
def ScriptDef.functionDefs (n : ScriptDef) : List FunctionDef := children FunctionDef n.syn
/-- nodes.rs:19. -/
def ScriptDef.rBraceToken (n : ScriptDef) : Option SyntaxToken := token n.syn .R_BRACE
/-- nodes.rs:26. -/
def FunctionDef.funToken (n : FunctionDef) : Option SyntaxToken := token n.syn .FUN_KW
/-- nodes.rs:27. -/
def FunctionDef.identToken (n : FunctionDef) : Option SyntaxToken := token n.syn .IDENT
/-- nodes.rs:28. -/
def FunctionDef.lParenToken (n : FunctionDef) : Option SyntaxToken := token n.syn .L_PAREN
/-- nodes.rs:29. -/
def FunctionDef.rParenToken (n : FunctionDef) : Option SyntaxToken := token n.syn .R_PAREN
/-- nodes.rs:30. -/
def FunctionDef.lBraceToken (n : FunctionDef) : Option SyntaxToken := token n.syn .L_BRACE
/-- nodes.rs:31. -/
def FunctionDef.exprStmts (n : FunctionDef) : List ExprStmt := children ExprStmt n.syn
/-- nodes.rs:32. -/
def FunctionDef.rBraceToken (n : FunctionDef) : Option SyntaxToken := token n.syn .R_BRACE
/-- nodes.rs:39. -/
def ExprStmt.expr (n : ExprStmt) : Option Expr := child Expr n.syn
/-- nodes.rs:40. -/
def ExprStmt.semicolonToken (n : ExprStmt) : Option SyntaxToken := token n.syn .SEMICOLON
/-- nodes.rs:47. -/
def BinExpr.lhs (n : BinExpr) : Option Expr := child Expr n.syn
/-- nodes.rs:48. -/
def BinExpr.plusToken (n : BinExpr) : Option SyntaxToken := token n.syn .PLUS
/-- nodes.rs:49. -/
def BinExpr.minusToken (n : BinExpr) : Option SyntaxToken := token n.syn .MINUS
/-- nodes.rs:50. -/
def BinExpr.starToken (n : BinExpr) : Option SyntaxToken := token n.syn .STAR
/-- nodes.rs:51. -/
def BinExpr.slashToken (n : BinExpr) : Option SyntaxToken := token n.syn .SLASH
/-- nodes.rs:52. -/
def BinExpr.modToken (n : BinExpr) : Option SyntaxToken := token n.syn .MOD
/-- nodes.rs:53. -/
def BinExpr.rhs (n : BinExpr) : Option Expr := child Expr n.syn
/-- nodes.rs:60. -/
def Literal.trueToken (n : Literal) : Option SyntaxToken := token n.syn .TRUE_KW
/-- nodes.rs:61. -/
def Literal.falseToken (n : Literal) : Option SyntaxToken := token n.syn .FALSE_KW

/-- lib.rs:29-34, `Parse`: the tree (root kind and children) and the errors. -/
structure Parse where
  kind : Kind
  green : Green
  errors : List SyntaxError

/-- lib.rs:46-48, `Parse::syntax_node`. -/
def Parse.syntaxNode (p : Parse) : SyntaxNode := ⟨p.kind, 0, p.green⟩

/-- lib.rs:56-58, `Parse::tree`; `none` is the panic of `unwrap`. -/
def Parse.tree (α : Type) [AstNode α] (p : Parse) : Option α := AstNode.cast p.syntaxNode

/-- lib.rs:64-70, `Parse::ok`; the outer `none` is a panic of `tree`. -/
def Parse.ok (α : Type) [AstNode α] (p : Parse) : Option (Except (List SyntaxError) α) :=
  if p.errors.isEmpty then (p.tree α).map .ok else some (.error p.errors)

/-- lib.rs:74-80, `Parse::<SyntaxNode>::cast`. -/
def Parse.cast (α : Type) [AstNode α] (p : Parse) : Option Parse :=
  if (AstNode.cast p.syntaxNode : Option α).isSome then some p else none

/-- lib.rs:117-130, `SourceFile::parse`; `none` stands for a panic of the parser. -/
def parseFile (text : Text) : Option Parse :=
  match parse text with
  | .ok kind green errors => some ⟨kind, green, errors⟩
  | _ => none

end Verif.Ast
