import Verif.Ast.Structure

set_option autoImplicit false

/-!
C85: what the accessors of the typed tree find in a file without errors.
-/

namespace Verif.Ast

open Parser Language


def Shape.nodeKind : Shape → Option Kind
  | .leaf _ => none
  | .node k _ => some k

def Shape.leafKind : Shape → Option Kind
  | .leaf k => some k
  | .node _ _ => none

theorem children_kinds (off : Nat) (g : Green) :
    ((elements off g).filterMap Element.intoNode).map SyntaxNode.kind = g.shapes.filterMap Shape.nodeKind := by
  induction g with
  | nil => rfl
  | leaf init k t ih =>
    rw [elements, Green.shapes]
    rw [List.filterMap_append, List.map_append, ih]
    split <;> simp [List.filterMap_cons, Element.intoNode, Shape.nodeKind]
  | node init k kids ih _ =>
    rw [elements, Green.shapes]
    rw [List.filterMap_append, List.map_append, ih]
    simp [Element.intoNode, Shape.nodeKind]

theorem token_kinds (off : Nat) (g : Green) :
    (((elements off g).filterMap Element.intoToken).map SyntaxToken.kind).filter (fun k => !k.isTrivia) =
      g.shapes.filterMap Shape.leafKind := by
  induction g with
  | nil => rfl
  | leaf init k t ih =>
    rw [elements, Green.shapes]
    rw [List.filterMap_append, List.map_append, List.filter_append, ih]
    by_cases hk : k.isTrivia = true <;> simp [hk, Element.intoToken, Shape.leafKind]
  | node init k kids ih _ =>
    rw [elements, Green.shapes]
    rw [List.filterMap_append, List.map_append, List.filter_append, ih]
    simp [List.filterMap_cons, Element.intoToken, Shape.leafKind]

theorem token_isSome {n : SyntaxNode} {k : Kind} (hk : k.isTrivia = false) :
    (token n k).isSome = true ↔ k ∈ n.kids.shapes.filterMap Shape.leafKind := by
  rw [← token_kinds n.offset]
  unfold token SyntaxNode.childrenWithTokens
  rw [List.find?_isSome]
  simp only [List.mem_filter, List.mem_map, hk, Bool.not_false, and_true, beq_iff_eq]

theorem token_none {n : SyntaxNode} {k : Kind} (hk : k.isTrivia = false)
    (h : k ∉ n.kids.shapes.filterMap Shape.leafKind) : token n k = none := by
  rw [← token_isSome hk] at h
  simpa using h

theorem children_none {α : Type} [AstNode α] {kinds : List Kind} (hv : IsView α kinds) {n : SyntaxNode}
    (h : ∀ k ∈ kinds, k ∉ n.kids.shapes.filterMap Shape.nodeKind) : children α n = [] := by
  have := children_spec hv n
  have he : n.children.filter (fun c => decide (c.kind ∈ kinds)) = [] := by
    rw [List.filter_eq_nil_iff]
    intro c hc hk
    refine h c.kind (of_decide_eq_true hk) ?_
    rw [← children_kinds n.offset]
    exact List.mem_map_of_mem hc
  rw [he] at this
  exact List.map_eq_nil_iff.1 this


/-- The kinds of expressions. -/
def exprKinds : List Kind :=
  [.BIN_EXPR, .PREFIX_EXPR, .CALL_EXPR, .DOT_EXPR, .LITERAL, .PATH_EXPR, .RECORD_EXPR, .PAREN_EXPR, .BLOCK_EXPR]

/-- What the derivation of a nonterminal that is always one node looks like. -/
def Single (x : NT) (ks : List Kind) : Prop :=
  ∀ ts sh, DerivesBy Lenient [.nt x] ts sh → ∃ k kids, k ∈ ks ∧ sh = [.node k kids]

theorem cons_nt {x : NT} {syms : List Sym} {ts : List (Kind × Text)} {sh : List Shape}
    (h : DerivesBy Lenient (.nt x :: syms) ts sh) :
    ∃ t1 t2 s1 s2, DerivesBy Lenient [.nt x] t1 s1 ∧ DerivesBy Lenient syms t2 s2 ∧ sh = s1 ++ s2 := by
  cases h with
  | @nt _ k rhs _ us ts inner sh r h1 h2 =>
    refine ⟨us, ts, wrap k inner, sh, ?_, h2, rfl⟩
    have := DerivesBy.nt r h1 DerivesBy.nil
    simpa using this

theorem cons_single {x : NT} {ks : List Kind} (hx : Single x ks) {syms : List Sym} {ts : List (Kind × Text)}
    {sh : List Shape} (h : DerivesBy Lenient (.nt x :: syms) ts sh) :
    ∃ k kids t2 s2, k ∈ ks ∧ DerivesBy Lenient syms t2 s2 ∧ sh = .node k kids :: s2 := by
  obtain ⟨t1, t2, s1, s2, h1, h2, rfl⟩ := cons_nt h
  obtain ⟨k, kids, hk, rfl⟩ := hx _ _ h1
  exact ⟨k, kids, t2, s2, hk, h2, rfl⟩

theorem cons_tok {k : Kind} {syms : List Sym} {ts : List (Kind × Text)} {sh : List Shape}
    (h : DerivesBy Lenient (.tok k :: syms) ts sh) :
    ∃ t2 s2, DerivesBy Lenient syms t2 s2 ∧ sh = .leaf k :: s2 := by
  cases h with
  | tok h2 => exact ⟨_, _, h2, rfl⟩

theorem nil_shape {ts : List (Kind × Text)} {sh : List Shape} (h : DerivesBy Lenient [] ts sh) : sh = [] := by
  cases h; rfl

/-- A nonterminal all of whose rules make a node. -/
theorem single_of_rules {x : NT} {ks : List Kind}
    (h : ∀ k rhs, Lenient x k rhs → ∃ k', k = some k' ∧ k' ∈ ks) : Single x ks := by
  intro ts sh hd
  cases hd with
  | nt r h1 h2 =>
    obtain ⟨k', rfl, hk⟩ := h _ _ r
    cases h2
    exact ⟨k', _, hk, rfl⟩

theorem single_name : Single .name [.NAME] := single_of_rules (by
  intro k rhs h; cases h with | strict r => cases r; exact ⟨_, rfl, by simp⟩)

theorem single_paramList : Single .paramList [.PARAM_LIST] := single_of_rules (by
  intro k rhs h; cases h with | strict r => cases r; exact ⟨_, rfl, by simp⟩)

theorem single_ret : Single .ret [.RET_TYPE] := single_of_rules (by
  intro k rhs h; cases h with | strict r => cases r; exact ⟨_, rfl, by simp⟩)

theorem single_block : Single .block [.BLOCK_EXPR] := single_of_rules (by
  intro k rhs h; cases h with | strict r => cases r; exact ⟨_, rfl, by simp⟩)

theorem single_itemBody : Single .itemBody [.ITEM_LIST] := single_of_rules (by
  intro k rhs h; cases h with | strict r => cases r; exact ⟨_, rfl, by simp⟩)

theorem single_addressLit : Single .addressLit [.ADDRESS_LIT] := single_of_rules (by
  intro k rhs h; cases h with | strict r => cases r <;> exact ⟨_, rfl, by simp⟩)

/-- The nonterminals of expressions. -/
def IsExpr : NT → Prop
  | .expr _ | .unary | .postfixed | .atom => True
  | _ => False

/-- Every expression is one node of one of the nine kinds. -/
theorem single_exprs {x : NT} (hx : IsExpr x) : Single x exprKinds := by
  intro ts sh h
  generalize hs : [Sym.nt x] = syms at h
  induction h generalizing x with
  | nil => cases hs
  | tok => cases hs
  | hex => cases hs
  | @nt y k rhs syms us ts inner sh r h1 h2 ih _ =>
    cases hs
    cases h2
    have chain : ∀ y, IsExpr y → rhs = [.nt y] → k = none →
        ∃ k' kids, k' ∈ exprKinds ∧ wrap k inner ++ [] = [.node k' kids] := by
      intro y hy e1 e2
      subst e2
      rw [wrap, List.append_nil]
      exact ih hy e1.symm
    have node : ∀ k', k = some k' → k' ∈ exprKinds →
        ∃ k' kids, k' ∈ exprKinds ∧ wrap k inner ++ [] = [.node k' kids] := by
      intro k' e1 e2
      subst e1
      exact ⟨k', inner, e2, rfl⟩
    cases r with
    | strict r =>
      cases r with
      | expr_up _ => exact chain (.expr _) trivial rfl rfl
      | expr_unary => exact chain .unary trivial rfl rfl
      | unary_postfixed => exact chain .postfixed trivial rfl rfl
      | postfixed_atom => exact chain .atom trivial rfl rfl
      | atom_block =>
        obtain ⟨k', kids, hk, e⟩ := single_block _ _ h1
        subst e
        rw [List.mem_singleton] at hk
        subst hk
        exact ⟨_, kids, by simp [exprKinds], rfl⟩
      | expr_bin _ => exact node _ rfl (by simp [exprKinds])
      | unary_star => exact node _ rfl (by simp [exprKinds])
      | unary_bang => exact node _ rfl (by simp [exprKinds])
      | unary_minus => exact node _ rfl (by simp [exprKinds])
      | postfixed_call => exact node _ rfl (by simp [exprKinds])
      | postfixed_dot => exact node _ rfl (by simp [exprKinds])
      | atom_true => exact node _ rfl (by simp [exprKinds])
      | atom_false => exact node _ rfl (by simp [exprKinds])
      | atom_integer => exact node _ rfl (by simp [exprKinds])
      | atom_hex_string => exact node _ rfl (by simp [exprKinds])
      | atom_byte_string => exact node _ rfl (by simp [exprKinds])
      | atom_address => exact node _ rfl (by simp [exprKinds])
      | atom_path => exact node _ rfl (by simp [exprKinds])
      | atom_record => exact node _ rfl (by simp [exprKinds])
      | atom_unit => exact node _ rfl (by simp [exprKinds])
      | atom_paren => exact node _ rfl (by simp [exprKinds])
      | _ => exact hx.elim
    | parens n => exact node _ rfl (by simp [exprKinds])
    | _ => exact hx.elim

theorem single_expr (q : Nat) : Single (.expr q) exprKinds := single_exprs trivial

/-- The rule of a node that is not the root. -/
theorem rule_of_node {text : Text} {p : Parse} (h : parseFile text = some p) (he : p.errors = [])
    {n : SyntaxNode} (hb : Below p.syntaxNode n) (hk : n.kind ≠ .SOURCE_FILE) :
    ∃ x rhs us, Lenient x (some n.kind) rhs ∧ DerivesBy Lenient rhs us n.kids.shapes := by
  obtain ⟨ts, _, h1 | ⟨x, rhs, us, h1, h2, _⟩⟩ := nodes_follow_grammar h he n hb
  · exfalso
    apply hk
    rw [h1.1]
    exact (parseFile_parse h).2
  · exact ⟨x, rhs, us, h1, h2⟩

/-- A function definition has these children. -/
theorem function_children {text : Text} {p : Parse} (h : parseFile text = some p) (he : p.errors = [])
    {n : SyntaxNode} (hb : Below p.syntaxNode n) (hk : n.kind = .FUNCTION_DEF) :
    ∃ a b c, n.kids.shapes = [.leaf .FUN_KW, .node .NAME a, .node .PARAM_LIST b, .node .BLOCK_EXPR c] ∨
      ∃ d, n.kids.shapes =
        [.leaf .FUN_KW, .node .NAME a, .node .PARAM_LIST b, .node .RET_TYPE d, .node .BLOCK_EXPR c] := by
  obtain ⟨x, rhs, us, hr, hd⟩ := rule_of_node h he hb (by rw [hk]; decide)
  rw [hk] at hr
  cases hr with
  | strict r =>
    cases r with
    | fun_unit =>
      obtain ⟨_, _, hd, e⟩ := cons_tok hd
      obtain ⟨_, a, _, _, h1, hd, e1⟩ := cons_single single_name hd
      obtain ⟨_, b, _, _, h2, hd, e2⟩ := cons_single single_paramList hd
      obtain ⟨_, c, _, _, h3, hd, e3⟩ := cons_single single_block hd
      have e4 := nil_shape hd
      rw [List.mem_singleton] at h1 h2 h3
      subst e4 e3 e2 e1 h1 h2 h3
      exact ⟨a, b, c, Or.inl e⟩
    | fun_ret =>
      obtain ⟨_, _, hd, e⟩ := cons_tok hd
      obtain ⟨_, a, _, _, h1, hd, e1⟩ := cons_single single_name hd
      obtain ⟨_, b, _, _, h2, hd, e2⟩ := cons_single single_paramList hd
      obtain ⟨_, d, _, _, h4, hd, e5⟩ := cons_single single_ret hd
      obtain ⟨_, c, _, _, h3, hd, e3⟩ := cons_single single_block hd
      have e4 := nil_shape hd
      rw [List.mem_singleton] at h1 h2 h3 h4
      subst e4 e3 e5 e2 e1 h1 h2 h3 h4
      exact ⟨a, b, c, Or.inr ⟨d, e⟩⟩


/-- A script has these children. -/
theorem script_children {text : Text} {p : Parse} (h : parseFile text = some p) (he : p.errors = [])
    {n : SyntaxNode} (hb : Below p.syntaxNode n) (hk : n.kind = .SCRIPT_DEF) :
    n.kids.shapes = [.leaf .SCRIPT_KW, .leaf .SEMICOLON] ∨
    ∃ a, n.kids.shapes = [.leaf .SCRIPT_KW, .node .ITEM_LIST a] := by
  obtain ⟨x, rhs, us, hr, hd⟩ := rule_of_node h he hb (by rw [hk]; decide)
  rw [hk] at hr
  cases hr with
  | strict r =>
    cases r with
    | script =>
      obtain ⟨_, _, hd, e⟩ := cons_tok hd
      obtain ⟨_, a, _, _, h1, hd, e1⟩ := cons_single single_itemBody hd
      have e4 := nil_shape hd
      rw [List.mem_singleton] at h1
      subst e4 e1 h1
      exact Or.inr ⟨a, e⟩
  | script_semi =>
    obtain ⟨_, _, hd, e⟩ := cons_tok hd
    obtain ⟨_, _, hd, e1⟩ := cons_tok hd
    have e4 := nil_shape hd
    subst e4 e1
    exact Or.inl e

/-- A statement that is an expression has these children. -/
theorem stmt_children {text : Text} {p : Parse} (h : parseFile text = some p) (he : p.errors = [])
    {n : SyntaxNode} (hb : Below p.syntaxNode n) (hk : n.kind = .EXPR_STMT) :
    ∃ k a, k ∈ exprKinds ∧ (n.kids.shapes = [.node k a] ∨ n.kids.shapes = [.node k a, .leaf .SEMICOLON]) := by
  obtain ⟨x, rhs, us, hr, hd⟩ := rule_of_node h he hb (by rw [hk]; decide)
  rw [hk] at hr
  cases hr with
  | strict r =>
    cases r with
    | stmts_last =>
      obtain ⟨k, a, _, _, h1, hd, e⟩ := cons_single (single_expr 1) hd
      have e4 := nil_shape hd
      subst e4
      exact ⟨k, a, h1, Or.inl e⟩
    | stmt_expr =>
      obtain ⟨k, a, _, _, h1, hd, e⟩ := cons_single (single_expr 1) hd
      obtain ⟨_, _, hd, e1⟩ := cons_tok hd
      have e4 := nil_shape hd
      subst e4 e1
      exact ⟨k, a, h1, Or.inr e⟩
  | stmt_expr =>
    obtain ⟨k, a, _, _, h1, hd, e⟩ := cons_single (single_expr 1) hd
    have e4 := nil_shape hd
    subst e4
    exact ⟨k, a, h1, Or.inl e⟩

/-- A binary expression has these children. -/
theorem bin_children {text : Text} {p : Parse} (h : parseFile text = some p) (he : p.errors = [])
    {n : SyntaxNode} (hb : Below p.syntaxNode n) (hk : n.kind = .BIN_EXPR) :
    ∃ k a op l b, k ∈ exprKinds ∧ l ∈ exprKinds ∧ (precedence op).isSome = true ∧
      n.kids.shapes = [.node k a, .leaf op, .node l b] := by
  obtain ⟨x, rhs, us, hr, hd⟩ := rule_of_node h he hb (by rw [hk]; decide)
  rw [hk] at hr
  cases hr with
  | strict r =>
    cases r with
    | @expr_bin q op hop =>
      obtain ⟨k, a, _, _, h1, hd, e⟩ := cons_single (single_expr q) hd
      obtain ⟨_, _, hd, e1⟩ := cons_tok hd
      obtain ⟨l, b, _, _, h2, hd, e2⟩ := cons_single (single_expr (q + 1)) hd
      have e4 := nil_shape hd
      subst e4 e2 e1
      exact ⟨k, a, op, l, b, h1, h2, by rw [hop]; rfl, e⟩

/-- A literal has one of these as its only child. -/
theorem literal_children {text : Text} {p : Parse} (h : parseFile text = some p) (he : p.errors = [])
    {n : SyntaxNode} (hb : Below p.syntaxNode n) (hk : n.kind = .LITERAL) :
    (∃ k ∈ [Kind.TRUE_KW, .FALSE_KW, .INTEGER_NUMBER, .HEX_STRING, .BYTE_STRING], n.kids.shapes = [.leaf k]) ∨
    ∃ a, n.kids.shapes = [.node .ADDRESS_LIT a] := by
  obtain ⟨x, rhs, us, hr, hd⟩ := rule_of_node h he hb (by rw [hk]; decide)
  rw [hk] at hr
  have one : ∀ k, rhs = [.tok k] → n.kids.shapes = [.leaf k] := by
    intro k e
    rw [e] at hd
    obtain ⟨_, _, hd, e⟩ := cons_tok hd
    rw [nil_shape hd] at e
    exact e
  cases hr with
  | strict r =>
    cases r with
    | atom_true => exact Or.inl ⟨_, by simp, one _ rfl⟩
    | atom_false => exact Or.inl ⟨_, by simp, one _ rfl⟩
    | atom_integer => exact Or.inl ⟨_, by simp, one _ rfl⟩
    | atom_hex_string => exact Or.inl ⟨_, by simp, one _ rfl⟩
    | atom_byte_string => exact Or.inl ⟨_, by simp, one _ rfl⟩
    | atom_address =>
      obtain ⟨_, a, _, _, h1, hd, e⟩ := cons_single single_addressLit hd
      rw [nil_shape hd] at e
      rw [List.mem_singleton] at h1
      subst h1
      exact Or.inr ⟨a, e⟩

theorem cast_syn {α : Type} [AstNode α] {kinds : List Kind} (hv : IsView α kinds) {n : SyntaxNode} {a : α}
    (h : AstNode.cast n = some a) : AstNode.syn a = n ∧ n.kind ∈ kinds :=
  ⟨hv.same n a h, (hv.some_iff n).1 ⟨a, h⟩⟩

/-- **C85, violated.**  In no file without errors does a function have a name, parentheses, braces or statements,
if one believes the typed tree: the parser puts them into nodes of their own. -/
theorem function_parts_never_found {text : Text} {p : Parse} (h : parseFile text = some p) (he : p.errors = [])
    (n : SyntaxNode) (hb : Below p.syntaxNode n) (f : FunctionDef) (hf : AstNode.cast n = some f) :
    f.identToken = none ∧ f.lParenToken = none ∧ f.rParenToken = none ∧ f.lBraceToken = none ∧
    f.rBraceToken = none ∧ f.exprStmts = [] := by
  obtain ⟨e, hk⟩ := cast_syn views.2.2.1 hf
  have e : f.syn = n := e
  rw [List.mem_singleton] at hk
  obtain ⟨a, b, c, hs | ⟨d, hs⟩⟩ := function_children h he hb hk
  all_goals
    unfold FunctionDef.identToken FunctionDef.lParenToken FunctionDef.rParenToken FunctionDef.lBraceToken
      FunctionDef.rBraceToken FunctionDef.exprStmts
    rw [e]
    refine ⟨token_none rfl ?_, token_none rfl ?_, token_none rfl ?_, token_none rfl ?_, token_none rfl ?_,
      children_none views.2.2.2.1 ?_⟩ <;> simp [hs, Shape.leafKind, Shape.nodeKind]

/-- **C85, violated.**  In no file without errors does a script have braces or functions. -/
theorem script_parts_never_found {text : Text} {p : Parse} (h : parseFile text = some p) (he : p.errors = [])
    (n : SyntaxNode) (hb : Below p.syntaxNode n) (f : ScriptDef) (hf : AstNode.cast n = some f) :
    f.lBraceToken = none ∧ f.rBraceToken = none ∧ f.functionDefs = [] := by
  obtain ⟨e, hk⟩ := cast_syn views.2.1 hf
  have e : f.syn = n := e
  rw [List.mem_singleton] at hk
  have hs := script_children h he hb hk
  unfold ScriptDef.lBraceToken ScriptDef.rBraceToken ScriptDef.functionDefs
  rw [e]
  rcases hs with hs | ⟨a, hs⟩ <;>
    refine ⟨token_none rfl ?_, token_none rfl ?_, children_none views.2.2.1 ?_⟩ <;>
    simp [hs, Shape.leafKind, Shape.nodeKind]

/-- What does hold, for functions: the keyword is found. -/
theorem fun_token_found_partial {text : Text} {p : Parse} (h : parseFile text = some p) (he : p.errors = [])
    (n : SyntaxNode) (hb : Below p.syntaxNode n) (f : FunctionDef) (hf : AstNode.cast n = some f) :
    f.funToken.isSome = true := by
  obtain ⟨e, hk⟩ := cast_syn views.2.2.1 hf
  have e : f.syn = n := e
  rw [List.mem_singleton] at hk
  unfold FunctionDef.funToken
  rw [e, token_isSome rfl]
  obtain ⟨a, b, c, hs | ⟨d, hs⟩⟩ := function_children h he hb hk <;> simp [hs, Shape.leafKind]

/-- The operator tokens the typed tree reports. -/
def BinExpr.operators (b : BinExpr) : List Kind :=
  ([b.plusToken, b.minusToken, b.starToken, b.slashToken, b.modToken].filterMap id).map SyntaxToken.kind

theorem token_kind {n : SyntaxNode} {k : Kind} {t : SyntaxToken} (h : token n k = some t) : t.kind = k := by
  unfold token at h
  have := List.find?_some h
  simpa using this

/-- The operator of a binary expression of a file without errors: the token between its two operands.  If it is
one of `+ - * / %` the typed tree reports it and no other; if it is one of `= < > | ^ &` the typed tree reports no
operator. -/
theorem operator_found_partial {text : Text} {p : Parse} (h : parseFile text = some p) (he : p.errors = [])
    (n : SyntaxNode) (hb : Below p.syntaxNode n) (b : BinExpr) (hf : AstNode.cast n = some b) :
    ∃ op, (precedence op).isSome = true ∧ (∃ k l x y, n.kids.shapes = [.node k x, .leaf op, .node l y]) ∧
      b.operators = if op ∈ [Kind.PLUS, .MINUS, .STAR, .SLASH, .MOD] then [op] else [] := by
  obtain ⟨e, hk⟩ := cast_syn views.2.2.2.2.1 hf
  have e : b.syn = n := e
  rw [List.mem_singleton] at hk
  obtain ⟨k, x, op, l, y, _, _, hop, hs⟩ := bin_children h he hb hk
  refine ⟨op, hop, ⟨k, l, x, y, hs⟩, ?_⟩
  have iff : ∀ k', k'.isTrivia = false → ((token n k').isSome = true ↔ k' = op) := by
    intro k' hk'
    rw [token_isSome hk', hs]
    simp [Shape.leafKind, eq_comm]
  have val : ∀ k', k'.isTrivia = false →
      (k' = op ∧ ∃ t, token n k' = some t ∧ t.kind = k') ∨ (k' ≠ op ∧ token n k' = none) := by
    intro k' hk'
    cases ht : token n k' with
    | none =>
      refine Or.inr ⟨?_, rfl⟩
      intro hx
      have := (iff k' hk').2 hx
      rw [ht] at this
      cases this
    | some t => exact Or.inl ⟨(iff k' hk').1 (by rw [ht]; rfl), t, rfl, token_kind ht⟩
  unfold BinExpr.operators BinExpr.plusToken BinExpr.minusToken BinExpr.starToken BinExpr.slashToken BinExpr.modToken
  rw [e]
  rcases val .PLUS rfl with ⟨h1, t1, v1, k1⟩ | ⟨h1, v1⟩ <;>
  rcases val .MINUS rfl with ⟨h2, t2, v2, k2⟩ | ⟨h2, v2⟩ <;>
  rcases val .STAR rfl with ⟨h3, t3, v3, k3⟩ | ⟨h3, v3⟩ <;>
  rcases val .SLASH rfl with ⟨h4, t4, v4, k4⟩ | ⟨h4, v4⟩ <;>
  rcases val .MOD rfl with ⟨h5, t5, v5, k5⟩ | ⟨h5, v5⟩ <;>
  first
  | (exfalso; subst_vars; contradiction)
  | (exfalso; simp_all; done)
  | (subst_vars; simp_all; done)
  | (simp [v1, v2, v3, v4, v5, Ne.symm h1, Ne.symm h2, Ne.symm h3, Ne.symm h4, Ne.symm h5])

/-- The expression of a statement of a file without errors: the typed tree reports one if and only if it is a
binary expression or a literal. -/
theorem stmt_expr_found_partial {text : Text} {p : Parse} (h : parseFile text = some p) (he : p.errors = [])
    (n : SyntaxNode) (hb : Below p.syntaxNode n) (s : ExprStmt) (hf : AstNode.cast n = some s) :
    ∃ c, n.children = [c] ∧ c.kind ∈ exprKinds ∧
      (s.expr.isSome = true ↔ c.kind = .BIN_EXPR ∨ c.kind = .LITERAL) ∧
      ∀ x, s.expr = some x → AstNode.syn x = c := by
  obtain ⟨e, hk⟩ := cast_syn views.2.2.2.1 hf
  have e : s.syn = n := e
  rw [List.mem_singleton] at hk
  obtain ⟨k, a, hke, hs⟩ := stmt_children h he hb hk
  have hm : n.children.map SyntaxNode.kind = [k] := by
    have := children_kinds n.offset n.kids
    rcases hs with hs | hs <;> · rw [hs] at this; exact this
  obtain ⟨c, hc, hck⟩ : ∃ c, n.children = [c] ∧ c.kind = k := by
    match hn : n.children with
    | [] => rw [hn] at hm; cases hm
    | [c] => rw [hn] at hm; exact ⟨c, rfl, by simpa using hm⟩
    | _ :: _ :: _ => rw [hn] at hm; simp at hm
  have hx : s.expr = AstNode.cast c := by
    unfold ExprStmt.expr child
    rw [e, hc]
    simp
  have hv := views.2.2.2.2.2.2
  refine ⟨c, hc, hck ▸ hke, ?_, ?_⟩
  · rw [hx, Option.isSome_iff_exists, hv.some_iff]
    simp
  · intro x hx'
    rw [hx] at hx'
    exact hv.same c x hx'

/-- A literal of a file without errors: `true` and `false` are told from each other and from all other literals. -/
theorem literal_tokens_found_partial {text : Text} {p : Parse} (h : parseFile text = some p) (he : p.errors = [])
    (n : SyntaxNode) (hb : Below p.syntaxNode n) (l : Literal) (hf : AstNode.cast n = some l) :
    (l.trueToken.isSome = true ↔ n.kids.shapes = [.leaf .TRUE_KW]) ∧
    (l.falseToken.isSome = true ↔ n.kids.shapes = [.leaf .FALSE_KW]) := by
  obtain ⟨e, hk⟩ := cast_syn views.2.2.2.2.2.1 hf
  have e : l.syn = n := e
  rw [List.mem_singleton] at hk
  unfold Literal.trueToken Literal.falseToken
  rw [e, token_isSome rfl, token_isSome rfl]
  rcases literal_children h he hb hk with ⟨k, _, hs⟩ | ⟨a, hs⟩ <;> simp [hs, Shape.leafKind, eq_comm]

/-- The operands of a binary expression of a file without errors: two children, the left operand and the right
one.  The typed tree knows operands that are binary expressions or literals.  `lhs` is the left operand if the tree
knows it; otherwise it is the right operand if the tree knows that, which is wrong; otherwise there is none.
`rhs` is the same, so that it is the right operand exactly if the tree knows this one and not the left. -/
theorem operands_found_partial {text : Text} {p : Parse} (h : parseFile text = some p) (he : p.errors = [])
    (n : SyntaxNode) (hb : Below p.syntaxNode n) (b : BinExpr) (hf : AstNode.cast n = some b) :
    ∃ left right, n.children = [left, right] ∧ left.kind ∈ exprKinds ∧ right.kind ∈ exprKinds ∧ b.rhs = b.lhs ∧
      (b.lhs.map fun x => (AstNode.syn x : SyntaxNode)) =
        if left.kind = .BIN_EXPR ∨ left.kind = .LITERAL then some left
        else if right.kind = .BIN_EXPR ∨ right.kind = .LITERAL then some right else none := by
  obtain ⟨e, hk⟩ := cast_syn views.2.2.2.2.1 hf
  have e : b.syn = n := e
  rw [List.mem_singleton] at hk
  obtain ⟨k, x, op, l, y, hke, hle, _, hs⟩ := bin_children h he hb hk
  have hm : n.children.map SyntaxNode.kind = [k, l] := by
    have := children_kinds n.offset n.kids
    rw [hs] at this
    exact this
  obtain ⟨c, d, hc, hck, hdk⟩ : ∃ c d, n.children = [c, d] ∧ c.kind = k ∧ d.kind = l := by
    match hn : n.children with
    | [] => rw [hn] at hm; cases hm
    | [c] => rw [hn] at hm; simp at hm
    | [c, d] => rw [hn] at hm; exact ⟨c, d, rfl, by simpa using hm⟩
    | _ :: _ :: _ :: _ => rw [hn] at hm; simp at hm
  have hx := (lhs_first_partial b)
  rw [e] at hx
  refine ⟨c, d, hc, hck ▸ hke, hdk ▸ hle, rhs_is_lhs b, ?_⟩
  rw [hx.1, ← List.head?_map, hx.2, hc]
  by_cases h1 : c.kind = .BIN_EXPR ∨ c.kind = .LITERAL <;> by_cases h2 : d.kind = .BIN_EXPR ∨ d.kind = .LITERAL <;>
    simp [h1, h2]

/-- The numbers of errors, scripts, functions, statements, binary expressions and literals of a file. -/
def census (text : Text) : Option (List Nat) :=
  match parseFile text with
  | none => none
  | some p =>
    let all := descendants 12 p.syntaxNode
    some [p.errors.length, (all.filterMap (AstNode.cast (α := ScriptDef))).length,
      (all.filterMap (AstNode.cast (α := FunctionDef))).length, (all.filterMap (AstNode.cast (α := ExprStmt))).length,
      (all.filterMap (AstNode.cast (α := BinExpr))).length, (all.filterMap (AstNode.cast (α := Literal))).length]

/-- A file without errors that has all of them. -/
example : census "script { fun f(): u8 { a < b; 1 + true } }".toList = some [0, 1, 1, 2, 2, 2] := by decide +kernel

/-- What the typed tree says about functions (keyword, name), statements (expression, semicolon), operators and
literals (true, false). -/
def report (text : Text) : Option (List (List (Bool × Bool)) × List (List Kind)) :=
  match parseFile text with
  | none => none
  | some p =>
    let all := descendants 12 p.syntaxNode
    some ([(all.filterMap (AstNode.cast (α := FunctionDef))).map (fun f => (f.funToken.isSome, f.identToken.isSome)),
      (all.filterMap (AstNode.cast (α := ExprStmt))).map (fun s => (s.expr.isSome, s.semicolonToken.isSome)),
      (all.filterMap (AstNode.cast (α := Literal))).map (fun l => (l.trueToken.isSome, l.falseToken.isSome))],
      (all.filterMap (AstNode.cast (α := BinExpr))).map BinExpr.operators)

example : report "script { fun f(): u8 { a < b; g(); 1 + true } }".toList =
    some ([[(true, false)], [(true, true), (false, true), (true, false)], [(false, false), (true, false)]],
      [[], [.PLUS]]) := by decide +kernel

end Verif.Ast
