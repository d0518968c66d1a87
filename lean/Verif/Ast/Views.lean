import Verif.Ast.Model
import Verif.Parser.Props

set_option autoImplicit false

/-!
C65 (typed views) and C66 (accessors).
-/

namespace Verif.Ast

open Parser

/-! ### C65, views -/

/-- A class of views of the nodes of the given kinds: the test answers by the kind, exactly these nodes
have a view, and the view shows the node itself. -/
structure IsView (α : Type) [AstNode α] (kinds : List Kind) : Prop where
  test : ∀ k, AstNode.canCast α k = true ↔ k ∈ kinds
  some_iff : ∀ n, (∃ a : α, AstNode.cast n = some a) ↔ n.kind ∈ kinds
  same : ∀ (n : SyntaxNode) (a : α), AstNode.cast n = some a → AstNode.syn a = n
  back : ∀ (n : SyntaxNode) (a : α), AstNode.cast n = some a → AstNode.cast (AstNode.syn a) = some a

theorem isView_of_struct {α : Type} [AstNode α] (k : Kind) (mk : SyntaxNode → α)
    (h1 : ∀ x, AstNode.canCast α x = (x == k))
    (h2 : ∀ n, AstNode.cast n = if n.kind == k then some (mk n) else none)
    (h3 : ∀ n, AstNode.syn (mk n) = n) : IsView α [k] := by
  refine ⟨?_, ?_, ?_, ?_⟩
  · intro x; rw [h1]; simp
  · intro n
    rw [h2]
    by_cases h : n.kind = k <;> simp [h]
  · intro n a h
    rw [h2] at h
    split at h
    · cases h; exact h3 n
    · cases h
  · intro n a h
    have h' := h
    rw [h2] at h
    split at h
    · cases h; rw [h3]; exact h'
    · cases h

/-- C65: every class of the typed syntax tree is a view of the nodes of its kind; `Expr` of those of its
two alternatives. -/
theorem views :
    IsView SourceFile [.SOURCE_FILE] ∧ IsView ScriptDef [.SCRIPT_DEF] ∧ IsView FunctionDef [.FUNCTION_DEF] ∧
    IsView ExprStmt [.EXPR_STMT] ∧ IsView BinExpr [.BIN_EXPR] ∧ IsView Literal [.LITERAL] ∧
    IsView Expr [.BIN_EXPR, .LITERAL] := by
  refine ⟨isView_of_struct _ SourceFile.mk (fun _ => rfl) (fun _ => rfl) (fun _ => rfl),
    isView_of_struct _ ScriptDef.mk (fun _ => rfl) (fun _ => rfl) (fun _ => rfl),
    isView_of_struct _ FunctionDef.mk (fun _ => rfl) (fun _ => rfl) (fun _ => rfl),
    isView_of_struct _ ExprStmt.mk (fun _ => rfl) (fun _ => rfl) (fun _ => rfl),
    isView_of_struct _ BinExpr.mk (fun _ => rfl) (fun _ => rfl) (fun _ => rfl),
    isView_of_struct _ Literal.mk (fun _ => rfl) (fun _ => rfl) (fun _ => rfl), ?_⟩
  have hc : ∀ (n : SyntaxNode) (a : Expr), AstNode.cast n = some a →
      (n.kind = .BIN_EXPR ∧ a = .binExpr ⟨n⟩) ∨ (n.kind = .LITERAL ∧ a = .literal ⟨n⟩) := by
    intro n a h
    simp only [AstNode.cast] at h
    split at h
    next e => cases h; exact Or.inl ⟨e, rfl⟩
    next e => cases h; exact Or.inr ⟨e, rfl⟩
    · cases h
  refine ⟨?_, ?_, ?_, ?_⟩
  · intro k
    simp only [AstNode.canCast]
    split <;> simp_all
  · intro n
    constructor
    · rintro ⟨a, h⟩
      rcases hc n a h with ⟨e, _⟩ | ⟨e, _⟩ <;> simp [e]
    · intro h
      simp only [List.mem_cons, List.not_mem_nil, or_false] at h
      rcases h with e | e
      · exact ⟨.binExpr ⟨n⟩, by simp [AstNode.cast, e]⟩
      · exact ⟨.literal ⟨n⟩, by simp [AstNode.cast, e]⟩
  · intro n a h
    rcases hc n a h with ⟨_, rfl⟩ | ⟨_, rfl⟩ <;> rfl
  · intro n a h
    have h' := h
    rcases hc n a h with ⟨_, rfl⟩ | ⟨_, rfl⟩ <;> exact h'

/-- C65: an expression is shown as the alternative that shows the same node. -/
theorem expr_cast_iff (n : SyntaxNode) (e : Expr) : AstNode.cast n = some e ↔
    (∃ b : BinExpr, AstNode.cast n = some b ∧ e = .binExpr b) ∨
    (∃ l : Literal, AstNode.cast n = some l ∧ e = .literal l) := by
  have hb : ∀ b : BinExpr, AstNode.cast n = some b ↔ n.kind = .BIN_EXPR ∧ b = ⟨n⟩ := by
    intro b
    simp only [AstNode.cast]
    by_cases h : n.kind = .BIN_EXPR
    · simp only [h, beq_self_eq_true, if_true, Option.some.injEq, true_and]
      exact eq_comm
    · simp [h]
  have hl : ∀ b : Literal, AstNode.cast n = some b ↔ n.kind = .LITERAL ∧ b = ⟨n⟩ := by
    intro b
    simp only [AstNode.cast]
    by_cases h : n.kind = .LITERAL
    · simp only [h, beq_self_eq_true, if_true, Option.some.injEq, true_and]
      exact eq_comm
    · simp [h]
  simp only [hb, hl]
  simp only [AstNode.cast]
  split
  next h =>
    simp only [h, reduceCtorEq, false_and, exists_false, or_false, true_and, Option.some.injEq]
    constructor
    · rintro rfl; exact ⟨_, rfl, rfl⟩
    · rintro ⟨b, rfl, rfl⟩; rfl
  next h =>
    simp only [h, reduceCtorEq, false_and, exists_false, false_or, true_and, Option.some.injEq]
    constructor
    · rintro rfl; exact ⟨_, rfl, rfl⟩
    · rintro ⟨b, rfl, rfl⟩; rfl
  next h1 h2 =>
    constructor
    · intro h; cases h
    · rintro (⟨b, ⟨h, _⟩, _⟩ | ⟨b, ⟨h, _⟩, _⟩)
      · exact absurd h h1
      · exact absurd h h2

/-- C65: whenever a file was parsed, its typed root exists and shows the root of the tree, at offset 0, with
the text of the file; `tree` does not panic. -/
theorem tree_of_parse {text : Text} {p : Parse} (h : parseFile text = some p) :
    ∃ f : SourceFile, p.tree SourceFile = some f ∧ f.syn = p.syntaxNode ∧ f.syn.offset = 0 ∧
      f.syn.kids.text = text := by
  unfold parseFile at h
  split at h
  next kind green errors hp =>
    cases h
    have hk : kind = .SOURCE_FILE := by
      unfold parse parseWithDepth at hp
      repeat' split at hp
      all_goals first | (cases hp; assumption) | cases hp
    refine ⟨⟨_⟩, ?_, rfl, rfl, parse_lossless hp⟩
    simp [Parse.tree, AstNode.cast, Parse.syntaxNode, hk]
  · cases h

/-- C65: `Parse::ok` yields the typed root exactly when there are no errors, else all the errors. -/
theorem ok_of_parse {text : Text} {p : Parse} (h : parseFile text = some p) :
    (p.errors = [] ∧ ∃ f : SourceFile, p.ok SourceFile = some (.ok f) ∧ f.syn = p.syntaxNode) ∨
    (p.errors ≠ [] ∧ p.ok SourceFile = some (.error p.errors)) := by
  obtain ⟨f, hf, hs, _⟩ := tree_of_parse h
  unfold Parse.ok
  by_cases he : p.errors = []
  · left
    refine ⟨he, f, ?_, hs⟩
    simp [he, hf]
  · right
    refine ⟨he, ?_⟩
    simp [he]

/-- `Parse::cast` keeps the tree and the errors, and succeeds exactly when the root has a view. -/
theorem parse_cast {α : Type} [AstNode α] {kinds : List Kind} (hv : IsView α kinds) (p : Parse) :
    (p.kind ∈ kinds → p.cast α = some p) ∧ (p.kind ∉ kinds → p.cast α = none) := by
  unfold Parse.cast
  have := hv.some_iff p.syntaxNode
  constructor
  · intro h
    obtain ⟨a, ha⟩ := this.mpr h
    simp [ha]
  · intro h
    have hn : ∀ a : α, AstNode.cast p.syntaxNode ≠ some a := fun a ha => h (this.mp ⟨a, ha⟩)
    cases hc : (AstNode.cast p.syntaxNode : Option α) with
    | none => simp
    | some a => exact absurd hc (hn a)

example : ∃ p, parseFile "script { fun main() { 1 + 2; } }".toList = some p ∧ p.errors = [] := by
  have h : (match parseFile "script { fun main() { 1 + 2; } }".toList with
    | some p => p.errors.isEmpty
    | none => false) = true := by decide +kernel
  split at h
  next p hp => exact ⟨p, hp, List.isEmpty_iff.mp h⟩
  · cases h

/-! ### C66, accessors -/

/-- C66: `children` yields the children that have a view, all of them and in order. -/
theorem children_spec {α : Type} [AstNode α] {kinds : List Kind} (hv : IsView α kinds) (n : SyntaxNode) :
    (children α n).map AstNode.syn = n.children.filter fun c => decide (c.kind ∈ kinds) := by
  unfold children
  induction n.children with
  | nil => rfl
  | cons c cs ih =>
    simp only [astChildrenFrom]
    cases hc : (AstNode.cast c : Option α) with
    | none =>
      have hk : c.kind ∉ kinds := by
        intro h
        obtain ⟨a, ha⟩ := (hv.some_iff c).mpr h
        rw [ha] at hc
        cases hc
      simp [hk, ih]
    | some a =>
      have hk : c.kind ∈ kinds := (hv.some_iff c).mp ⟨a, hc⟩
      simp [hk, ih, hv.same c a hc]

/-- C66: `child` yields the first of them. -/
theorem child_spec {α : Type} [AstNode α] (n : SyntaxNode) : child α n = (children α n).head? := by
  unfold child children
  induction n.children with
  | nil => rfl
  | cons c cs ih =>
    simp only [astChildrenFrom, List.findSome?_cons]
    cases (AstNode.cast c : Option α) with
    | none => exact ih
    | some a => rfl

/-- C66: `token` yields the first direct token of the kind. -/
theorem token_spec (n : SyntaxNode) (k : Kind) (t : SyntaxToken) : token n k = some t ↔
    ∃ before after, n.childrenWithTokens = before ++ .token t :: after ∧ t.kind = k ∧
      ∀ u, Element.token u ∈ before → u.kind ≠ k := by
  unfold token
  induction n.childrenWithTokens with
  | nil => simp
  | cons e es ih =>
    cases e with
    | node c =>
      simp only [List.filterMap_cons, Element.intoToken]
      rw [ih]
      constructor
      · rintro ⟨before, after, rfl, hk, hb⟩
        exact ⟨.node c :: before, after, rfl, hk, by simpa using hb⟩
      · rintro ⟨before, after, he, hk, hb⟩
        cases before with
        | nil => simp at he
        | cons b before =>
          simp only [List.cons_append, List.cons.injEq] at he
          exact ⟨before, after, he.2, hk, fun u hu => hb u (by simp [hu])⟩
    | token u =>
      simp only [List.filterMap_cons, Element.intoToken, List.find?_cons]
      by_cases hu : u.kind = k
      · simp only [hu, beq_self_eq_true, Option.some.injEq]
        constructor
        · rintro rfl
          exact ⟨[], es, rfl, hu, by simp⟩
        · rintro ⟨before, after, he, hk, hb⟩
          cases before with
          | nil => simp at he; exact he.1
          | cons b before =>
            simp only [List.cons_append, List.cons.injEq] at he
            exact absurd hu (hb u (by simp [← he.1]))
      · have : (u.kind == k) = false := by simp [hu]
        simp only [this]
        rw [ih]
        constructor
        · rintro ⟨before, after, rfl, hk, hb⟩
          refine ⟨.token u :: before, after, rfl, hk, ?_⟩
          intro w hw
          simp only [List.mem_cons, Element.token.injEq] at hw
          rcases hw with rfl | hw
          · exact hu
          · exact hb w hw
        · rintro ⟨before, after, he, hk, hb⟩
          cases before with
          | nil => simp at he; exact absurd (he.1 ▸ hk) hu
          | cons b before =>
            simp only [List.cons_append, List.cons.injEq] at he
            exact ⟨before, after, he.2, hk, fun u hu => hb u (by simp [hu])⟩

/-- `Below root n`: `n` is `root` or a node of its tree. -/
inductive Below (root : SyntaxNode) : SyntaxNode → Prop
  | refl : Below root root
  | child (p c : SyntaxNode) (hp : Below root p) (hc : c ∈ p.children) : Below root c

/-- The text `t` stands in the file at byte offset `off`. -/
def StandsAt (file : Text) (off : Nat) (t : Text) : Prop :=
  ∃ before after, file = before ++ t ++ after ∧ byteLen before = off

def Element.offset : Element → Nat
  | .node n => n.offset
  | .token t => t.offset

def Element.text : Element → Text
  | .node n => n.kids.text
  | .token t => t.text

theorem text_leaf (g : Green) (k : Kind) (t : Text) : (Green.leaf g k t).text = g.text ++ t := by
  simp [Green.text, Green.leaves]

theorem text_node (g : Green) (k : Kind) (kids : Green) : (Green.node g k kids).text = g.text ++ kids.text := by
  simp [Green.text, Green.leaves]

theorem elements_stand (off : Nat) (g : Green) (e : Element) (h : e ∈ elements off g) :
    ∃ before after, g.text = before ++ e.text ++ after ∧ e.offset = off + byteLen before := by
  induction g with
  | nil => cases h
  | leaf init k t ih =>
    rw [elements, List.mem_append, List.mem_singleton] at h
    rw [text_leaf]
    rcases h with h | rfl
    · obtain ⟨b, a, e1, e2⟩ := ih h
      exact ⟨b, a ++ t, by rw [e1]; simp, e2⟩
    · exact ⟨init.text, [], by simp [Element.text], rfl⟩
  | node init k kids ih _ =>
    rw [elements, List.mem_append, List.mem_singleton] at h
    rw [text_node]
    rcases h with h | rfl
    · obtain ⟨b, a, e1, e2⟩ := ih h
      exact ⟨b, a ++ kids.text, by rw [e1]; simp, e2⟩
    · exact ⟨init.text, [], by simp [Element.text], rfl⟩

theorem byteLen_append (a b : Text) : byteLen (a ++ b) = byteLen a + byteLen b := by
  simp

theorem stands_child {file : Text} {n : SyntaxNode} (h : StandsAt file n.offset n.kids.text) {e : Element}
    (he : e ∈ n.childrenWithTokens) : StandsAt file e.offset e.text := by
  obtain ⟨b, a, e1, e2⟩ := h
  obtain ⟨b', a', e3, e4⟩ := elements_stand n.offset n.kids e he
  refine ⟨b ++ b', a' ++ a, ?_, ?_⟩
  · rw [e1, e3]; simp
  · rw [byteLen_append, e2, e4]

theorem mem_children {n c : SyntaxNode} (h : c ∈ n.children) : Element.node c ∈ n.childrenWithTokens := by
  unfold SyntaxNode.children at h
  obtain ⟨e, he, hc⟩ := List.mem_filterMap.mp h
  cases e with
  | node m => cases hc; exact he
  | token t => cases hc

/-- C66: in a parsed file every node and every token stands in the text of the file where its offset says. -/
theorem nodes_stand {text : Text} {p : Parse} (h : parseFile text = some p) (n : SyntaxNode)
    (hb : Below p.syntaxNode n) :
    StandsAt text n.offset n.kids.text ∧
      ∀ t, Element.token t ∈ n.childrenWithTokens → StandsAt text t.offset t.text := by
  have h1 : StandsAt text n.offset n.kids.text := by
    induction hb with
    | refl =>
      obtain ⟨f, _, hs, _, ht⟩ := tree_of_parse h
      refine ⟨[], [], ?_, rfl⟩
      rw [← hs, ht]
      simp
    | child p' c _ hc ih => exact stands_child ih (mem_children hc)
  exact ⟨h1, fun t ht => stands_child h1 ht⟩

/-- C66: the result of a child accessor on a node of a file is a child of that node, and a node of the file. -/
theorem children_below {α : Type} [AstNode α] {kinds : List Kind} (hv : IsView α kinds) {root n : SyntaxNode}
    (hb : Below root n) (a : α) (ha : a ∈ children α n) :
    AstNode.syn a ∈ n.children ∧ (AstNode.syn a : SyntaxNode).kind ∈ kinds ∧ Below root (AstNode.syn a) := by
  have h1 : AstNode.syn a ∈ (children α n).map AstNode.syn := List.mem_map.mpr ⟨a, ha, rfl⟩
  rw [children_spec hv n, List.mem_filter] at h1
  exact ⟨h1.1, of_decide_eq_true h1.2, .child n _ hb h1.1⟩

/-- C66, partial: the accessors as they are: `lhs` is the first operand among the children that have a view
as an expression.  Missing: `rhs` is the same (`rhs_is_lhs`), operands that are not literals or binary
expressions have no view (`operands_without_view`), and the classes do not follow the parser's trees
(`script_functions_missing`). -/
theorem lhs_first_partial (b : BinExpr) :
    b.lhs = (children Expr b.syn).head? ∧
    (children Expr b.syn).map AstNode.syn =
      b.syn.children.filter (fun c => decide (c.kind ∈ [Kind.BIN_EXPR, Kind.LITERAL])) :=
  ⟨child_spec b.syn, children_spec views.2.2.2.2.2.2 b.syn⟩

/-- C66 does not hold: the right operand of every binary expression is reported to be the left one. -/
theorem rhs_is_lhs (b : BinExpr) : b.rhs = b.lhs := rfl

/-! Witnesses on parsed files. -/

/-- The nodes below, in document order. -/
def descendants : Nat → SyntaxNode → List SyntaxNode
  | 0, n => [n]
  | d + 1, n => n :: n.children.flatMap (descendants d)

theorem descendants_below {root : SyntaxNode} (d : Nat) {n m : SyntaxNode} (h : m ∈ descendants d n)
    (hb : Below root n) : Below root m := by
  induction d generalizing n with
  | zero => rw [List.mem_singleton.mp h]; exact hb
  | succ d ih =>
    rcases List.mem_cons.mp h with rfl | h
    · exact hb
    · obtain ⟨c, hc, hm⟩ := List.mem_flatMap.mp h
      exact ih hm (.child n c hb hc)

/-- The binary expressions of a file. -/
def binExprs (text : Text) : List BinExpr :=
  match parseFile text with
  | none => []
  | some p => (descendants 20 p.syntaxNode).filterMap AstNode.cast

/-- The texts of the reported operands. -/
def operands (b : BinExpr) : Option Text × Option Text :=
  (b.lhs.map fun e => (AstNode.syn e).kids.text, b.rhs.map fun e => (AstNode.syn e).kids.text)

/-- `1 + 2`: both operands are reported to be `1`. -/
theorem rhs_wrong : (binExprs "script { fun main() { 1 + 2; } }".toList).map operands =
    [(some "1".toList, some "1".toList)] := by decide +kernel

/-- `a + 2`: a name is no expression for the typed tree, and `2` is reported as the left operand. -/
theorem operands_without_view : (binExprs "script { fun main() { a + 2; } }".toList).map operands =
    [(some "2".toList, some "2".toList)] := by decide +kernel

/-- The typed scripts of a file with the number of functions they report, and the number of function nodes of
the tree. -/
def scriptFunctions (text : Text) : Option (List Nat × Nat) :=
  match parseFile text with
  | none => none
  | some p =>
    match p.tree SourceFile with
    | none => none
    | some f => some (f.scriptDefs.map fun s => s.functionDefs.length,
        ((descendants 20 p.syntaxNode).filter fun n => n.kind == .FUNCTION_DEF).length)

/-- The parser puts the functions of a script into an item list, the typed tree looks for them directly below
the script: `function_defs` misses the function. -/
theorem script_functions_missing :
    scriptFunctions "script { fun main() { 1 + 2; } }".toList = some ([0], 1) := by decide +kernel

/-- The hypotheses of `nodes_stand` and `children_below` are met by the binary expression of a file. -/
example : ∃ p n, parseFile "script { fun main() { 1 + 2; } }".toList = some p ∧ Below p.syntaxNode n ∧
    n.kind = .BIN_EXPR ∧ n.offset = 22 ∧ (children Expr n).length = 2 := by
  have h : (match parseFile "script { fun main() { 1 + 2; } }".toList with
    | some p => (descendants 20 p.syntaxNode).any fun n =>
        decide (n.kind = .BIN_EXPR ∧ n.offset = 22 ∧ (children Expr n).length = 2)
    | none => false) = true := by decide +kernel
  split at h
  next p hp =>
    obtain ⟨n, hn, hx⟩ := List.any_eq_true.mp h
    exact ⟨p, n, hp, descendants_below 20 hn .refl, of_decide_eq_true hx⟩
  · cases h

end Verif.Ast
