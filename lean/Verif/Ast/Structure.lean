import Verif.Ast.Views
import Verif.Parser.ErrorNodes
import Verif.Parser.SoundProps

set_option autoImplicit false

/-!
C83: every error node is reported.
C84: the tree of a file without errors follows the grammar at every node.
-/

namespace Verif.Ast

open Parser Language

/-! ### C83 -/

theorem covered_children {E : List SyntaxError} {off : Nat} {g : Green} (h : Covered E off g) {c : SyntaxNode}
    (hc : Element.node c ∈ elements off g) : Covered E c.offset c.kids ∧
      (c.kind = .ERROR → ∃ e ∈ E, c.offset ≤ e.offset ∧ e.offset ≤ c.offset + byteLen c.kids.text) := by
  induction g with
  | nil => cases hc
  | leaf init k t ih =>
    rw [elements, List.mem_append, List.mem_singleton] at hc
    rcases hc with hc | hc
    · exact ih h hc
    · cases hc
  | node init k kids ih _ =>
    rw [elements, List.mem_append, List.mem_singleton] at hc
    rcases hc with hc | hc
    · exact ih h.1 hc
    · cases hc
      exact h.2

theorem parseFile_parse {text : Text} {p : Parse} (h : parseFile text = some p) :
    parse text = .ok p.kind p.green p.errors ∧ p.kind = .SOURCE_FILE := by
  unfold parseFile at h
  split at h
  next kind green errors hp =>
    cases h
    refine ⟨hp, ?_⟩
    show kind = _
    unfold parse parseWithDepth at hp
    repeat' split at hp
    all_goals first | (cases hp; assumption) | cases hp
  · cases h

theorem covered_below {text : Text} {p : Parse} (h : parseFile text = some p) {n : SyntaxNode}
    (hb : Below p.syntaxNode n) : Covered p.errors n.offset n.kids := by
  induction hb with
  | refl => exact parse_covered (parseFile_parse h).1
  | child q c _ hc ih => exact (covered_children ih (mem_children hc)).1

/-- **C83.**  Whatever the text: for each error node of its tree an error is reported whose position is in the
range of the node. -/
theorem error_nodes_reported {text : Text} {p : Parse} (h : parseFile text = some p) (n : SyntaxNode)
    (hb : Below p.syntaxNode n) (hk : n.kind = .ERROR) :
    ∃ e ∈ p.errors, n.offset ≤ e.offset ∧ e.offset ≤ n.offset + byteLen n.kids.text := by
  cases hb with
  | refl =>
    have : p.kind = .ERROR := hk
    rw [(parseFile_parse h).2] at this
    cases this
  | child q c hq hc => exact (covered_children (covered_below h hq) (mem_children hc)).2 hk

/-- The error nodes of a file with their ranges, and the positions of its errors. -/
def errorNodes (text : Text) : Option (List (Nat × Nat) × List Nat) :=
  (parseFile text).map fun p =>
    (((descendants 10 p.syntaxNode).filter fun n => n.kind == .ERROR).map fun n => (n.offset, n.offset + byteLen n.kids.text),
      p.errors.map SyntaxError.offset)

/-- A text with error nodes. -/
example : errorNodes "module M { struct S { + } }".toList = some ([(22, 23)], [22]) := by
  decide +kernel

/-! ### C84 -/

theorem mem_shapes {off : Nat} {g : Green} {c : SyntaxNode} (hc : Element.node c ∈ elements off g) :
    Shape.node c.kind c.kids.shapes ∈ g.shapes := by
  induction g with
  | nil => cases hc
  | leaf init k t ih =>
    rw [elements, List.mem_append, List.mem_singleton] at hc
    rcases hc with hc | hc
    · rw [Green.shapes]
      split
      · exact ih hc
      · exact List.mem_append_left _ (ih hc)
    · cases hc
  | node init k kids ih _ =>
    rw [elements, List.mem_append, List.mem_singleton] at hc
    rw [Green.shapes]
    rcases hc with hc | hc
    · exact List.mem_append_left _ (ih hc)
    · cases hc
      simp

theorem derives_node {R : NT → Option Kind → List Sym → Prop} {syms : List Sym} {ts : List (Kind × Text)}
    {sh : List Shape} (h : DerivesBy R syms ts sh) {k : Kind} {kids : List Shape} (hm : Shape.node k kids ∈ sh) :
    ∃ x rhs us, R x (some k) rhs ∧ DerivesBy R rhs us kids ∧ us <:+: ts := by
  induction h with
  | nil => cases hm
  | @tok k' t syms ts sh _ ih =>
    rw [List.mem_cons] at hm
    rcases hm with hm | hm
    · cases hm
    · obtain ⟨x, rhs, us, h1, h2, h3⟩ := ih hm
      exact ⟨x, rhs, us, h1, h2, h3.trans (List.suffix_cons _ _).isInfix⟩
  | @hex t syms ts sh _ ih =>
    rw [List.mem_cons] at hm
    rcases hm with hm | hm
    · cases hm
    · obtain ⟨x, rhs, us, h1, h2, h3⟩ := ih hm
      exact ⟨x, rhs, us, h1, h2, h3.trans (List.suffix_cons _ _).isInfix⟩
  | @nt x k' rhs syms us ts inner sh r hd _ ih1 ih2 =>
    rw [List.mem_append] at hm
    rcases hm with hm | hm
    · cases k' with
      | none =>
        obtain ⟨x, rhs, us', h1, h2, h3⟩ := ih1 hm
        exact ⟨x, rhs, us', h1, h2, h3.trans (List.prefix_append _ _).isInfix⟩
      | some k' =>
        rw [wrap, List.mem_singleton] at hm
        cases hm
        exact ⟨x, rhs, us, r, hd, (List.prefix_append _ _).isInfix⟩
    · obtain ⟨x, rhs, us', h1, h2, h3⟩ := ih2 hm
      exact ⟨x, rhs, us', h1, h2, h3.trans (List.suffix_append _ _).isInfix⟩

/-- **C84.**  If a file has no errors, each node of its tree is an instance of a rule for its kind: its children
without whitespace and comments are those of the right-hand side, and they come from a part of the significant
tokens of the file.  The rules are those of `Language.lean` and the liberties of `Lenient.lean`. -/
theorem nodes_follow_grammar {text : Text} {p : Parse} (h : parseFile text = some p) (he : p.errors = [])
    (n : SyntaxNode) (hb : Below p.syntaxNode n) :
    ∃ ts, Lexer.Lexes text ts ∧
    ((n = p.syntaxNode ∧ DerivesBy Lenient [.nt .file] (Lexer.significant ts) n.kids.shapes) ∨
     ∃ x rhs us, Lenient x (some n.kind) rhs ∧ DerivesBy Lenient rhs us n.kids.shapes ∧ us <:+: Lexer.significant ts) := by
  have hp := (parseFile_parse h).1
  rw [he] at hp
  obtain ⟨ts, hl, hd⟩ := accepted_is_lenient_partial hp
  refine ⟨ts, hl, ?_⟩
  induction hb with
  | refl => exact Or.inl ⟨rfl, hd⟩
  | child q c _ hc ih =>
    have hm := mem_shapes (mem_children hc)
    rcases ih with ⟨_, h2⟩ | ⟨x, rhs, us, _, h2, h3⟩
    · exact Or.inr (derives_node h2 hm)
    · obtain ⟨x', rhs', us', h1', h2', h3'⟩ := derives_node h2 hm
      exact Or.inr ⟨x', rhs', us', h1', h2', h3'.trans h3⟩

/-- **C84.**  In particular there is no error node. -/
theorem no_error_nodes {text : Text} {p : Parse} (h : parseFile text = some p) (he : p.errors = [])
    (n : SyntaxNode) (hb : Below p.syntaxNode n) : n.kind ≠ .ERROR := by
  intro hk
  obtain ⟨e, hm, _⟩ := error_nodes_reported h n hb hk
  rw [he] at hm
  cases hm

end Verif.Ast
