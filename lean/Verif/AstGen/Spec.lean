import Verif.AstGen.Model

set_option autoImplicit false

/-!
What a grammar says, independently of the generator.
-/

namespace Verif.AstGen

/-- `elem sep elem sep … sep?`: a list of `elem` with a separator. -/
def IsList (rs : List Rule) (elem : Text) : Prop :=
  ∃ sep, rs = [.node elem, .rep (.seq [sep, .node elem]), .opt sep]

/-- The token is one of the brackets, or some of them as they follow each other in `[]{}()`. -/
def Bracket (name : Text) : Prop := ∃ a b, "[]{}()".toList = a ++ (name ++ b)

/-- `Constituent label rule f`: the rule, under a label, has the constituent `f`: a token, or a child
of a class with the name a user expects, once or many times.  Of a list with separators only the
elements are constituents; number and string tokens are not. -/
inductive Constituent : Option Text → Rule → Field → Prop
  | node (label : Option Text) (ty : Text) :
      Constituent label (.node ty) (.node (label.getD (Stdx.toLowerSnakeCase ty)) ty .optional)
  | token (name : Text) (h : name ≠ "integer_number".toList ∧ name ≠ "hex_string".toList ∧ name ≠ "byte_string".toList)
      (hb : ¬ Bracket name) : Constituent none (.token name) (.token name)
  | bracket (name : Text) (hb : Bracket name) : Constituent none (.token name) (.token ('\'' :: (name ++ ['\''])))
  | rep (label : Option Text) (ty : Text) :
      Constituent label (.rep (.node ty)) (.node (label.getD (Stdx.toLowerSnakeCase ty ++ ['s'])) ty .many)
  | list (label : Option Text) (rs : List Rule) (ty : Text) (h : IsList rs ty) :
      Constituent label (.seq rs) (.node (label.getD (Stdx.toLowerSnakeCase ty ++ ['s'])) ty .many)
  | seq (label : Option Text) (rs : List Rule) (r : Rule) (f : Field) (hn : ¬ ∃ ty, IsList rs ty)
      (hr : r ∈ rs) (h : Constituent label r f) : Constituent label (.seq rs) f
  | alt (label : Option Text) (rs : List Rule) (r : Rule) (f : Field) (hr : r ∈ rs)
      (h : Constituent label r f) : Constituent label (.alt rs) f
  | opt (label : Option Text) (r : Rule) (f : Field) (h : Constituent label r f) : Constituent label (.opt r) f
  | labeled (l : Text) (r : Rule) (f : Field) (h : Constituent (some l) r f) : Constituent none (.labeled l r) f

/-- The rules the generator supports: labels stand on classes, are not nested, and only classes repeat. -/
inductive Supported : Option Text → Rule → Prop
  | node (label : Option Text) (ty : Text) : Supported label (.node ty)
  | token (name : Text) : Supported none (.token name)
  | rep (label : Option Text) (ty : Text) : Supported label (.rep (.node ty))
  | list (label : Option Text) (rs : List Rule) (ty : Text) (h : IsList rs ty) : Supported label (.seq rs)
  | seq (label : Option Text) (rs : List Rule) (h : ∀ r, r ∈ rs → Supported label r) : Supported label (.seq rs)
  | alt (label : Option Text) (rs : List Rule) (h : ∀ r, r ∈ rs → Supported label r) : Supported label (.alt rs)
  | opt (label : Option Text) (r : Rule) (h : Supported label r) : Supported label (.opt r)
  | labeled (l : Text) (r : Rule) (h : Supported (some l) r) : Supported none (.labeled l r)

/-- The rule is a choice between classes, possibly with `;`. -/
def IsChoice (r : Rule) : Prop :=
  ∃ rs, r = .alt rs ∧ ∀ a, a ∈ rs → (∃ n, a = .node n) ∨ a = .token [';']

/-- The class `v` is an alternative of the choice `r`. -/
def Alternative (r : Rule) (v : Text) : Prop := ∃ rs, r = .alt rs ∧ Rule.node v ∈ rs

/-- `Accepts g t n`: the class `t` of the grammar stands for the class `n`: it is `n`, or a choice with
an alternative that stands for `n`. -/
inductive Accepts (g : Grammar) : Text → Text → Prop
  | refl (n : Text) : Accepts g n n
  | step (t v n : Text) (r : Rule) (hm : (t, r) ∈ g) (hc : IsChoice r) (hv : Alternative r v)
      (h : Accepts g v n) : Accepts g t n

/-- Keep the first occurrence of each element: the element at position `i` stays when it does not occur
before `i`. -/
def firstOccurrences (xs : List Field) : List Field :=
  (List.range xs.length).filterMap fun i =>
    match xs[i]? with
    | none => none
    | some x => if x ∈ xs.take i then none else some x

/-- The methods of each trait a class can have.  (`AttrsOwner`, …: what the class belongs to.) -/
def ownerTraits : List (Text × List Text) :=
  [("AttrsOwner".toList, ["attrs".toList]),
   ("NameOwner".toList, ["name".toList]),
   ("VisibilityOwner".toList, ["visibility".toList]),
   ("GenericParamsOwner".toList, ["generic_param_list".toList, "where_clause".toList]),
   ("TypeBoundsOwner".toList, ["type_bound_list".toList, "colon_token".toList]),
   ("ModuleItemOwner".toList, ["items".toList]),
   ("LoopBodyOwner".toList, ["label".toList, "loop_body".toList]),
   ("ArgListOwner".toList, ["arg_list".toList])]

end Verif.AstGen
