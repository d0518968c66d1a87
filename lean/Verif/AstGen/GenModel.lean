import Verif.AstGen.Kinds

set_option autoImplicit false

/-!
Model of the code the generator writes: `/repo/crates/generate_ast/src/ast/gen_nodes.rs`, `gen_tokens.rs` and the
macro `T!` of `syntax_kind.rs`.  The generated items are values here, and the functions on them say what the items do
in Rust.  The formatting of the text, the comments, of which there are none, and the warnings are left out.
-/

namespace Verif.AstGen

/-- The bodies of the generated accessors, gen_nodes.rs:20-38. -/
inductive Body where
  | children (ty : Text)
  | token (symbol : Text)
  | child (ty : Text)
  deriving DecidableEq, Repr

/-- What is generated. -/
inductive Item where
  /-- gen_nodes.rs:40-52, a class and its accessors. -/
  | struct (name : Text) (methods : List (Text × Body))
  /-- gen_nodes.rs:53-63, `impl AstNode` for a class: the kind it tests for. -/
  | classImpl (name kind : Text)
  /-- gen_nodes.rs:115-123, a choice, its alternatives, and the traits it is declared to have. -/
  | enum (name : Text) (variants traits : List Text)
  /-- gen_nodes.rs:125-131, `impl From<variant> for enum`. -/
  | from (variant enum : Text)
  /-- gen_nodes.rs:83-113, `impl AstNode` for a choice: the kinds and what they are read as. -/
  | choiceImpl (name : Text) (arms : List (Text × Text))
  /-- gen_nodes.rs:138-150, `impl Display`. -/
  | display (name : Text)
  deriving DecidableEq, Repr

/-- The kind of a class, gen_nodes.rs:9 and 74-77. -/
def kindOf (name : Text) : Text := Stdx.toUpperSnakeCase name

/-- gen_nodes.rs:16-39, an accessor. -/
def accessor (f : Field) : Text × Body :=
  match f with
  | .node _ ty .many => (f.methodName, .children ty)
  | .token name => (f.methodName, .token name)
  | .node _ ty .optional => (f.methodName, .child ty)

/-- gen_nodes.rs:124-133, the implementations that come with a choice. -/
def choiceItems (e : Enum) : List Item :=
  e.variants.map (fun v => .from v e.name) ++
    if e.name = "Stmt".toList then [] else [.choiceImpl e.name (e.variants.map fun v => (kindOf v, v))]

/-- gen_nodes.rs:3-189, `generate_nodes`. -/
def generateNodes (ast : Ast) : List Item :=
  ast.nodes.map (fun n => .struct n.name (n.fields.map accessor)) ++
  ast.enums.map (fun e => .enum e.name e.variants e.traits) ++
  ast.nodes.map (fun n => .classImpl n.name (kindOf n.name)) ++
  ast.enums.flatMap choiceItems ++
  (ast.enums.map Enum.name ++ ast.nodes.map Node.name).map .display

/-- gen_tokens.rs:3-33, `generate_tokens`: the classes of tokens with the kind each tests for. -/
def generateTokens (tokens : List Text) : List (Text × Text) := tokens.map fun t => (t, Stdx.toUpperSnakeCase t)

/-- The classes of tokens, ast.rs:101-104. -/
def tokenClasses : List Text := ["Whitespace", "Comment", "HexString", "ByteString", "IntegerNumber"].map String.toList

/-- The pattern of a punctuation in `T!`, syntax_kind.rs:124-132.  `none` is the panic of `unwrap` for an empty text. -/
def punctPattern (token : Text) : Option Text :=
  if (List.range 7).any (fun i => token.isPrefixOf ("{}[]()".toList.drop i)) then
    token.head?.map fun c => ['\'', c, '\'']
  else some token

/-- The arms of `T!`, syntax_kind.rs:220-226. -/
def macroArms (src : KindsSrc) : List (Option Text × Text) :=
  src.punct.map (fun p => (punctPattern p.1, p.2)) ++ src.keywords.map (fun kw => (some kw, keywordKind kw)) ++
    [(some "ident".toList, "IDENT".toList), (some "shebang".toList, "SHEBANG".toList)]

/-- `T![symbol]`: the first arm that matches. -/
def kindMacro (src : KindsSrc) (symbol : Text) : Option Text :=
  ((macroArms src).find? fun a => a.1 == some symbol).map Prod.snd

/-! ### What the items do -/

/-- A tree; kinds are texts here.  (rowan, external) -/
inductive Elem where
  | token (kind text : Text)
  | node (kind : Text) (kids : List Elem)

/-- A `SyntaxNode`: its kind and its children. -/
structure Syn where
  kind : Text
  kids : List Elem

/-- The nodes among the children. -/
def Syn.nodes (x : Syn) : List Syn :=
  x.kids.filterMap fun
    | .node k ks => some ⟨k, ks⟩
    | .token _ _ => none

/-- The tokens among the children: kind and text. -/
def Syn.tokens (x : Syn) : List (Text × Text) :=
  x.kids.filterMap fun
    | .token k t => some (k, t)
    | .node _ _ => none

/-- A value of a generated type: a class, or an alternative of a choice, with its node. -/
inductive Value where
  | class (ty : Text) (x : Syn)
  | variant (enum ty : Text) (x : Syn)

/-- An implementation of `AstNode`. -/
inductive Impl where
  | class (kind : Text)
  | choice (arms : List (Text × Text))

/-- The implementation for a type. -/
def implFor (ty : Text) : Item → Option Impl
  | .classImpl name kind => if name = ty then some (.class kind) else none
  | .choiceImpl name arms => if name = ty then some (.choice arms) else none
  | _ => none

/-- The generated `can_cast`, gen_nodes.rs:55-57 and 88-94. -/
def Impl.canCast : Impl → Text → Bool
  | .class kind, k => k == kind
  | .choice arms, k => arms.any fun a => k == a.1

/-- The generated `cast`, gen_nodes.rs:58-60 and 95-103. -/
def Impl.cast (ty : Text) : Impl → Syn → Option Value
  | .class kind, x => if x.kind == kind then some (.class ty x) else none
  | .choice arms, x => (arms.find? fun a => x.kind == a.1).map fun a => .variant ty a.2 x

/-- The generated `syntax`, gen_nodes.rs:61 and 104-110. -/
def Value.syn : Value → Syn
  | .class _ x => x
  | .variant _ _ x => x

/-- `ty::can_cast(kind)`; `none`: there is no such function, the code does not compile. -/
def canCast (items : List Item) (ty kind : Text) : Option Bool :=
  (items.findSome? (implFor ty)).map fun i => i.canCast kind

/-- `ty::cast(x)`. -/
def cast (items : List Item) (ty : Text) (x : Syn) : Option (Option Value) :=
  (items.findSome? (implFor ty)).map fun i => i.cast ty x

/-- What an accessor returns. -/
inductive Result where
  | many (vs : List Value)
  | one (v : Option Value)
  | token (t : Option (Text × Text))

/-- The accessors of a class. -/
def methodsOf (ty : Text) : Item → Option (List (Text × Body))
  | .struct name methods => if name = ty then some methods else none
  | _ => none

/-- The functions of `support`, crates/syntax/src/ast.rs:83-93. -/
def Body.eval (src : KindsSrc) (items : List Item) (x : Syn) : Body → Option Result
  | .children ty => (items.findSome? (implFor ty)).map fun i => .many (x.nodes.filterMap (i.cast ty))
  | .child ty => (items.findSome? (implFor ty)).map fun i => .one (x.nodes.findSome? (i.cast ty))
  | .token symbol => (kindMacro src symbol).map fun k => .token (x.tokens.find? fun t => t.1 == k)

/-- The accessor `m` of the class `ty` on a value with the node `x`; `none`: it does not exist. -/
def access (src : KindsSrc) (items : List Item) (ty m : Text) (x : Syn) : Option Result :=
  match items.findSome? (methodsOf ty) with
  | none => none
  | some methods =>
    match methods.find? fun a => a.1 == m with
    | none => none
    | some a => a.2.eval src items x

end Verif.AstGen
