import Verif.Stdx.Model

set_option autoImplicit false

/-!
Model of the generator of the typed syntax classes, `/repo/crates/generate_ast/src/ast.rs`.

`none` is a panic.  A grammar is what the `ungrammar` crate (external) parses: a list of named rules.
Simplification: a reference to a node or a token carries the name instead of the index of the
name (`ungrammar` keeps one index for each name).
-/

namespace Verif.AstGen

/-- `ungrammar::Rule` (external). -/
inductive Rule where
  | labeled (label : Text) (rule : Rule)
  | node (name : Text)
  | token (name : Text)
  | seq (rules : List Rule)
  | alt (rules : List Rule)
  | opt (rule : Rule)
  | rep (rule : Rule)

mutual
/-- The derived equality of `ungrammar::Rule` (external). -/
def Rule.same : Rule → Rule → Bool
  | .labeled l r, .labeled l' r' => decide (l = l') && Rule.same r r'
  | .node n, .node n' => decide (n = n')
  | .token n, .token n' => decide (n = n')
  | .seq rs, .seq rs' => Rule.sameList rs rs'
  | .alt rs, .alt rs' => Rule.sameList rs rs'
  | .opt r, .opt r' => Rule.same r r'
  | .rep r, .rep r' => Rule.same r r'
  | _, _ => false
/-- Equality of `Vec<Rule>` (external). -/
def Rule.sameList : List Rule → List Rule → Bool
  | [], [] => true
  | r :: rs, r' :: rs' => Rule.same r r' && Rule.sameList rs rs'
  | _, _ => false
end

/-- `ungrammar::Grammar` (external), in the order of `Grammar::iter`: names and rules. -/
abbrev Grammar := List (Text × Rule)

/-- ast.rs:43-47, `Cardinality`. -/
inductive Cardinality where
  | optional | many
  deriving DecidableEq, Repr

/-- ast.rs:37-41, `GrammarNodeField`. -/
inductive Field where
  | token (name : Text)
  | node (name ty : Text) (cardinality : Cardinality)
  deriving DecidableEq, Repr

/-- ast.rs:29-35, `GrammarNode`; `doc` is always empty and left out. -/
structure Node where
  name : Text
  traits : List Text
  fields : List Field
  deriving DecidableEq, Repr

/-- ast.rs:49-55, `GrammarEnum`; `doc` is always empty and left out. -/
structure Enum where
  name : Text
  traits : List Text
  variants : List Text
  deriving DecidableEq, Repr

/-- ast.rs:22-27, `GrammarAST`; `tokens` is constant (101-104) and left out. -/
structure Ast where
  nodes : List Node
  enums : List Enum
  deriving DecidableEq, Repr

/-- utils.rs:3-5, `pluralize`. -/
def pluralize (s : Text) : Text := s ++ ['s']

/-- The punctuation of syntax_kind.rs:52-91 with the names in lower case. -/
def punct : List (Text × Text) :=
  [(":", "colon"), ("::", "colon_colon"), (";", "semicolon"), (",", "comma"), ("(", "l_paren"),
   (")", "r_paren"), ("{", "l_brace"), ("}", "r_brace"), ("[", "l_brack"), ("]", "r_brack"),
   ("+", "plus"), ("-", "minus"), ("*", "star"), ("/", "slash"), ("%", "mod"), ("#", "numsign"),
   ("@", "atsign"), (".", "dot"), ("..", "dotdot"), ("&", "amp"), ("&&", "amp_amp"),
   ("&mut", "amp_mut"), ("^", "caret"), ("|", "pipe"), ("||", "pipe_pipe"), ("!", "bang"),
   ("!=", "bang_eq"), ("=", "eq"), ("==", "eq_eq"), ("==>", "eq_eq_gt"), (">", "gt"),
   (">>", "gt_gt"), (">=", "gt_eq"), ("<", "lt"), ("<<", "lt_lt"), ("<=", "lt_eq"),
   ("<==>", "lt_eq_eq_gt"), ("_", "wildcard")].map fun p : String × String => (p.1.toList, p.2.toList)

/-- `str::trim_matches('\'')`. -/
def trimQuotes (s : Text) : Text :=
  ((s.dropWhile (fun c => c = '\'')).reverse.dropWhile (fun c => c = '\'')).reverse

/-- ast.rs:70-89, `GrammarNodeField::method_name`.  Simplification: `format_ident!` panics on a text
that is not an identifier; here the text is returned. -/
def Field.methodName : Field → Text
  | .token name =>
    match punct.find? fun p => trimQuotes name = p.1 with
    | some p => p.2 ++ "_token".toList
    | none => name ++ "_token".toList
  | .node name _ _ => if name = "type".toList then "ty".toList else name

/-- ast.rs:90-95, `GrammarNodeField::ty`. -/
def Field.ty : Field → Text
  | .token _ => "SyntaxToken".toList
  | .node _ ty _ => ty

/-- ast.rs:136-150, `lower_enum`: the loop over the alternatives. -/
def lowerEnumLoop : List Rule → List Text → Option (List Text)
  | [], variants => some variants
  | .node n :: rest, variants => lowerEnumLoop rest (variants ++ [n])
  | .token t :: rest, variants => if t = [';'] then lowerEnumLoop rest variants else none
  | _ :: _, _ => none

/-- ast.rs:136-150, `lower_enum`; `none` means that the rule is not an enum. -/
def lowerEnum : Rule → Option (List Text)
  | .alt alternatives => lowerEnumLoop alternatives []
  | _ => none

/-- ast.rs:219-248, `lower_comma_list`; `none` is the result `false`. -/
def lowerCommaList (acc : List Field) (label : Option Text) : Rule → Option (List Field)
  | .seq [.node node, .rep (.seq [comma, .node n]), .opt trailing] =>
    if Rule.same comma trailing = true ∧ n = node then
      some (acc ++ [.node (label.getD (pluralize (Stdx.toLowerSnakeCase node))) node .many])
    else none
  | _ => none

/-- `"[]{}()".contains(name)`. -/
def isBracket (name : Text) : Bool :=
  (List.range 7).any fun i => name.isPrefixOf ("[]{}()".toList.drop i)

/-- The tokens without accessor, ast.rs:172. -/
def isLiteralToken (name : Text) : Bool :=
  name = "integer_number".toList || name = "hex_string".toList || name = "byte_string".toList

mutual
/-- ast.rs:152-216, `lower_rule`. -/
def lowerRule (acc : List Field) (label : Option Text) : Rule → Option (List Field)
  | .node ty => some (acc ++ [.node (label.getD (Stdx.toLowerSnakeCase ty)) ty .optional])
  | .token name =>
    if label ≠ none then none
    else if isLiteralToken name then some acc
    else some (acc ++ [.token (if isBracket name then '\'' :: (name ++ ['\'']) else name)])
  | .rep inner =>
    match inner with
    | .node ty => some (acc ++ [.node (label.getD (pluralize (Stdx.toLowerSnakeCase ty))) ty .many])
    | _ => none
  | .labeled l rule => if label ≠ none then none else lowerRule acc (some l) rule
  | .seq rules =>
    match lowerCommaList acc label (.seq rules) with
    | some acc => some acc
    | none => lowerRules acc label rules
  | .alt rules => lowerRules acc label rules
  | .opt rule => lowerRule acc label rule
/-- The loop of ast.rs:210-212. -/
def lowerRules (acc : List Field) (label : Option Text) : List Rule → Option (List Field)
  | [] => some acc
  | r :: rs =>
    match lowerRule acc label r with
    | none => none
    | some acc => lowerRules acc label rs
end

/-- The loop over the rules, ast.rs:108-127. -/
def lowerNodes : Grammar → Ast → Option Ast
  | [], ast => some ast
  | (name, rule) :: rest, ast =>
    match lowerEnum rule with
    | some variants => lowerNodes rest { ast with enums := ast.enums ++ [⟨name, [], variants⟩] }
    | none =>
      match lowerRule [] none rule with
      | none => none
      | some fields => lowerNodes rest { ast with nodes := ast.nodes ++ [⟨name, [], fields⟩] }

/-- The loop of `deduplicate_fields`, ast.rs:252-263: `seen` are the fields before `i`; the inner
loop over `0..i` (254-261) looks for the field among them. -/
def dedupLoop (seen : List Field) : List Field → List Field
  | [] => seen
  | f :: rest => if seen.any fun f2 => decide (f = f2) then dedupLoop seen rest else dedupLoop (seen ++ [f]) rest

/-- ast.rs:250-265, `deduplicate_fields`. -/
def deduplicateFields (ast : Ast) : Ast :=
  { ast with nodes := ast.nodes.map fun n => { n with fields := dedupLoop [] n.fields } }

/-- `Vec::remove`; `none` is the panic for an index out of range. -/
def removeAt (xs : List Field) (i : Nat) : Option (List Field) :=
  if i < xs.length then some (xs.eraseIdx i) else none

/-- The closure of `remove_field`, ast.rs:349-351, over the reversed indices. -/
def removeAll : List Nat → List Field → Option (List Field)
  | [], fields => some fields
  | i :: is, fields =>
    match removeAt fields i with
    | none => none
    | some fields => removeAll is fields

/-- ast.rs:347-353, `GrammarNode::remove_field`. -/
def removeField (toRemove : List Nat) (fields : List Field) : Option (List Field) :=
  removeAll toRemove.reverse fields

/-- The loops that fill `to_remove`, ast.rs:271-276 and 312-317: the indices of the fields that
satisfy the condition. -/
def indicesFrom (p : Field → Bool) : Nat → List Field → List Nat
  | _, [] => []
  | i, f :: fs => if p f then i :: indicesFrom p (i + 1) fs else indicesFrom p (i + 1) fs

/-- The field pushed by ast.rs:279-285. -/
def enumField (e : Enum) : Field := .node (Stdx.toLowerSnakeCase e.name) e.name .optional

/-- The body of the inner loop of `extract_enums`, ast.rs:270-286. -/
def extractEnum (fields : List Field) (enm : Enum) : Option (List Field) :=
  let toRemove := indicesFrom (fun f => enm.variants.any fun v => decide (v = f.ty)) 0 fields
  if toRemove.length = enm.variants.length then
    match removeField toRemove fields with
    | none => none
    | some fields => some (fields ++ [enumField enm])
  else some fields

/-- The loop over the enums, ast.rs:269-287. -/
def extractEnumsLoop : List Enum → List Field → Option (List Field)
  | [], fields => some fields
  | e :: es, fields =>
    match extractEnum fields e with
    | none => none
    | some fields => extractEnumsLoop es fields

/-- `Option`-valued loop over the nodes. -/
def forNodes (f : Node → Option Node) : List Node → Option (List Node)
  | [] => some []
  | n :: ns =>
    match f n with
    | none => none
    | some n' =>
      match forNodes f ns with
      | none => none
      | some ns' => some (n' :: ns')

/-- The body of the outer loop of `extract_enums`, ast.rs:268-288. -/
def extractEnumsNode (enums : List Enum) (n : Node) : Option Node :=
  match extractEnumsLoop enums n.fields with
  | none => none
  | some fields => some { n with fields := fields }

/-- ast.rs:267-289, `extract_enums`. -/
def extractEnums (ast : Ast) : Option Ast :=
  match forNodes (extractEnumsNode ast.enums) ast.nodes with
  | none => none
  | some nodes => some { ast with nodes := nodes }

/-- The table of ast.rs:292-301. -/
def structTraits : List (Text × List Text) :=
  [("AttrsOwner", ["attrs"]), ("NameOwner", ["name"]), ("VisibilityOwner", ["visibility"]),
   ("GenericParamsOwner", ["generic_param_list", "where_clause"]),
   ("TypeBoundsOwner", ["type_bound_list", "colon_token"]), ("ModuleItemOwner", ["items"]),
   ("LoopBodyOwner", ["label", "loop_body"]), ("ArgListOwner", ["arg_list"])].map
    fun p : String × List String => (p.1.toList, p.2.map String.toList)

/-- ast.rs:310-322, `extract_struct_trait`. -/
def extractStructTrait (n : Node) (tr : Text × List Text) : Option Node :=
  let toRemove := indicesFrom (fun f => tr.2.any fun m => decide (m = f.methodName)) 0 n.fields
  if toRemove.length = tr.2.length then
    match removeField toRemove n.fields with
    | none => none
    | some fields => some { n with traits := n.traits ++ [tr.1], fields := fields }
  else some n

/-- The loop over the table, ast.rs:304-306. -/
def extractStructTraitsLoop : List (Text × List Text) → Node → Option Node
  | [], n => some n
  | tr :: trs, n =>
    match extractStructTrait n tr with
    | none => none
    | some n => extractStructTraitsLoop trs n

/-- ast.rs:291-308, `extract_struct_traits`. -/
def extractStructTraits (ast : Ast) : Option Ast :=
  match forNodes (extractStructTraitsLoop structTraits) ast.nodes with
  | none => none
  | some nodes => some { ast with nodes := nodes }

/-- The traits of a variant, ast.rs:333-334; `none` is the `unwrap`. -/
def variantTraits (nodes : List Node) (v : Text) : Option (List Text) :=
  match nodes.find? fun n => decide (n.name = v) with
  | none => none
  | some n => some n.traits

/-- The loop of ast.rs:340-342.  Simplification: a `BTreeSet` is a list of texts; the traits of a
node are distinct and its order is that of the table, not the alphabetical one. -/
def intersectTraits (nodes : List Node) : List Text → List Text → Option (List Text)
  | [], acc => some acc
  | v :: vs, acc =>
    match variantTraits nodes v with
    | none => none
    | some ts => intersectTraits nodes vs (acc.filter fun t => ts.contains t)

/-- The body of the loop of `extract_enum_traits`, ast.rs:326-343. -/
def extractEnumTrait (nodes : List Node) (e : Enum) : Option Enum :=
  if e.name = "Stmt".toList then some e
  else match e.variants with
    | [] => some e
    | v :: vs =>
      match variantTraits nodes v with
      | none => none
      | some ts =>
        match intersectTraits nodes vs ts with
        | none => none
        | some ts => some { e with traits := ts }

/-- The loop of `extract_enum_traits`, ast.rs:325-344. -/
def extractEnumTraitsLoop (nodes : List Node) : List Enum → Option (List Enum)
  | [] => some []
  | e :: es =>
    match extractEnumTrait nodes e with
    | none => none
    | some e' =>
      match extractEnumTraitsLoop nodes es with
      | none => none
      | some es' => some (e' :: es')

/-- ast.rs:324-345, `extract_enum_traits`. -/
def extractEnumTraits (ast : Ast) : Option Ast :=
  match extractEnumTraitsLoop ast.nodes ast.enums with
  | none => none
  | some enums => some { ast with enums := enums }

/-- ast.rs:98-134, `lower`. -/
def lower (g : Grammar) : Option Ast :=
  match lowerNodes g ⟨[], []⟩ with
  | none => none
  | some ast =>
    match extractEnums (deduplicateFields ast) with
    | none => none
    | some ast =>
      match extractStructTraits ast with
      | none => none
      | some ast => extractEnumTraits ast

end Verif.AstGen
