import Verif.Parser.EdgesWalk

set_option autoImplicit false

/-!
C123: the whitespace and the comments around a construct are not part of its node.
-/

namespace Verif.Parser

open Kind

/-- The nodes in a sequence of elements, each with its kind and its children. -/
def Green.nodes : Green → List (Kind × Green)
  | .nil => []
  | .leaf init _ _ => init.nodes
  | .node init k kids => init.nodes ++ (k, kids) :: kids.nodes

/-- The last child of a node, when it is a token. -/
def Green.lastToken : Green → Option (Kind × Text)
  | .leaf _ k t => some (k, t)
  | _ => none

theorem Snug.nodes {g : Green} (h : Snug g) : ∀ n ∈ g.nodes, Snug n.2 ∧ FirstOk n.2 ∧ LastOk n.2 := by
  induction g with
  | nil => intro n hn; cases hn
  | leaf init k t ih => exact ih h
  | node init k kids h1 h2 =>
    intro n hn
    simp only [Green.nodes, List.mem_append, List.mem_cons] at hn
    rcases hn with hn | rfl | hn
    · exact h1 h.1 n hn
    · exact ⟨h.2.1, h.2.2⟩
    · exact h2 h.2.1 n hn

/-- **C123, where a node starts**: the first token of every node below the root of the tree of a file, if the node
has tokens, is neither whitespace nor a comment. -/
theorem node_starts_with_token {text : Text} {kind : Kind} {tree : Green} {errors : List SyntaxError}
    (h : parse text = .ok kind tree errors) :
    ∀ n ∈ tree.nodes, ∀ x, n.2.leaves.head? = some x → x.1 ≠ WHITESPACE ∧ x.1 ≠ COMMENT := by
  intro n hn x hx
  have := ((parse_snug h).nodes n hn).2.1 x hx
  constructor <;> (intro he; rw [he] at this; revert this; decide)

/-- **C123, the last child**: the last child of every node below the root is not a token that is whitespace or a
comment. -/
theorem node_last_child {text : Text} {kind : Kind} {tree : Green} {errors : List SyntaxError}
    (h : parse text = .ok kind tree errors) :
    ∀ n ∈ tree.nodes, ∀ x, n.2.lastToken = some x → x.1 ≠ WHITESPACE ∧ x.1 ≠ COMMENT := by
  intro n hn x hx
  have := ((parse_snug h).nodes n hn).2.2
  obtain ⟨k, kids⟩ := n
  cases kids with
  | nil => cases hx
  | node => cases hx
  | leaf init k' t =>
    cases hx
    have this : k'.isTrivia = false := this
    constructor <;> (intro he; rw [show k' = _ from he] at this; revert this; decide)

/-- The last child is a node without tokens, or a node that ends so. -/
def Green.EndsEmpty : Green → Prop
  | .node _ _ kids => kids.leaves = [] ∨ kids.EndsEmpty
  | _ => False

theorem last_leaf {g : Green} (hs : Snug g) (hl : LastOk g) (hn : ¬ g.EndsEmpty) :
    ∀ x, g.leaves.getLast? = some x → x.1.isTrivia = false := by
  induction g with
  | nil => intro x hx; cases hx
  | leaf init k t _ =>
    intro x hx
    simp only [Green.leaves, List.getLast?_append, List.getLast?_singleton, Option.some_or, Option.some.injEq] at hx
    subst hx
    exact hl
  | node init k kids _ h2 =>
    intro x hx
    have hk : kids.leaves ≠ [] := fun h => hn (.inl h)
    obtain ⟨y, hy⟩ : ∃ y, kids.leaves.getLast? = some y := ⟨_, List.getLast?_eq_some_getLast hk⟩
    rw [Green.leaves, List.getLast?_append, hy] at hx
    have hx : some y = some x := hx
    rw [hx] at hy
    exact h2 hs.2.1 hs.2.2.2 (fun h => hn (.inr h)) x hy

/-- **C123, where a node ends**: the last token of a node below the root is neither whitespace nor a comment, if the
node does not end in a node without tokens.  Missing: the nodes that do, see `node_ends_in_space`. -/
theorem node_ends_with_token_partial {text : Text} {kind : Kind} {tree : Green} {errors : List SyntaxError}
    (h : parse text = .ok kind tree errors) :
    ∀ n ∈ tree.nodes, ¬ n.2.EndsEmpty → ∀ x, n.2.leaves.getLast? = some x → x.1 ≠ WHITESPACE ∧ x.1 ≠ COMMENT := by
  intro n hn hne x hx
  obtain ⟨h1, _, h3⟩ := (parse_snug h).nodes n hn
  have := last_leaf h1 h3 hne x hx
  constructor <;> (intro he; rw [he] at this; revert this; decide)

theorem endsEmpty_nodes {g : Green} (h : g.EndsEmpty) : ∃ m ∈ g.nodes, m.2.leaves = [] := by
  induction g with
  | nil => cases h
  | leaf => cases h
  | node init k kids _ h2 =>
    rcases h with h | h
    · exact ⟨(k, kids), by simp [Green.nodes], h⟩
    · obtain ⟨m, hm, he⟩ := h2 h
      exact ⟨m, by simp [Green.nodes, hm], he⟩

/-- In particular if no node of the tree is without tokens, every node ends with a token. -/
theorem nodes_end_with_token_partial {text : Text} {kind : Kind} {tree : Green} {errors : List SyntaxError}
    (h : parse text = .ok kind tree errors) (hne : ∀ m ∈ tree.nodes, m.2.leaves ≠ []) :
    ∀ n ∈ tree.nodes, ∃ x, n.2.leaves.getLast? = some x ∧ x.1 ≠ WHITESPACE ∧ x.1 ≠ COMMENT := by
  intro n hn
  have hx := List.getLast?_eq_some_getLast (hne n hn)
  refine ⟨_, hx, node_ends_with_token_partial h n hn (fun he => ?_) _ hx⟩
  obtain ⟨m, hm, hm0⟩ := endsEmpty_nodes he
  exact hne m (within tree n hn m hm) hm0
where
  within (g : Green) : ∀ n ∈ g.nodes, ∀ m ∈ n.2.nodes, m ∈ g.nodes := by
    induction g with
    | nil => intro n hn; cases hn
    | leaf init k t ih => exact ih
    | node init k kids h1 h2 =>
      intro n hn m hm
      simp only [Green.nodes, List.mem_append, List.mem_cons] at hn ⊢
      rcases hn with hn | rfl | hn
      · exact .inl (h1 n hn m hm)
      · exact .inr (.inr hm)
      · exact .inr (.inr (h2 n hn m hm))

/-- **C123 does not hold at the end of a node**: after an operator without right operand the node of the operation
ends in the space, and in the comment, that follow the operator. -/
theorem node_ends_in_space :
    ((treeOf "script { fun m() { (1 + // c\n ); } }".toList).map fun t =>
      (t.nodes.filter fun n => n.1 = BIN_EXPR).map fun n => n.2.leaves) =
    some [[(INTEGER_NUMBER, ['1']), (WHITESPACE, [' ']), (PLUS, ['+']), (WHITESPACE, [' ']),
      (COMMENT, "// c\n".toList), (WHITESPACE, [' '])]] := by decide +kernel

/-- Without an error too: a type parameter with an empty list of abilities. -/
theorem node_ends_in_space_without_error :
    errorsOf "module 0x1::M { struct S<T: > {} }".toList = some [] ∧
    ((treeOf "module 0x1::M { struct S<T: > {} }".toList).map fun t =>
      (t.nodes.filter fun n => n.1 = TYPE_PARAM).map fun n => n.2.leaves) =
    some [[(IDENT, ['T']), (COLON, [':']), (WHITESPACE, [' '])]] := by decide +kernel

/-- Witness of `node_starts_with_token`, `node_last_child` and `node_ends_with_token_partial`: a function with
comments before, in and after it; its node starts at `fun` and ends at the brace, and no node of the tree is empty. -/
example : ((treeOf "// a\nscript { // b\nfun m() { // c\n1; // d\n} // e\n}".toList).map fun t =>
      (t.nodes.filter fun n => n.1 = FUNCTION_DEF).map fun n => (n.2.leaves.head?.map Prod.fst,
        n.2.leaves.getLast?.map Prod.fst, n.2.lastToken.isSome, t.nodes.all fun m => !m.2.leaves.isEmpty)) =
    some [(some FUN_KW, some R_BRACE, false, true)] := by decide +kernel

end Verif.Parser
