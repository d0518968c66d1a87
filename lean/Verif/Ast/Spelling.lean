import Verif.Ast.Views
import Verif.Lexer.Spelling

set_option autoImplicit false

/-!
C80: the tokens of a tree and the accessors for them.
-/

namespace Verif.Ast

open Parser Lexer

/-- The token is spelled as its kind says; an address is spelled as a number. -/
def WellSpelled (k : Kind) (u : Text) : Prop :=
  Lexer.Spec.Spelled k u ∨ (k = .DIEM_ADDRESS ∧ Lexer.Spec.Spelled .INTEGER_NUMBER u)

theorem sameTokens_spelled {ls ts : List (Kind × Text)} (h : SameTokens ls ts)
    (hs : ∀ x, x ∈ ts → Lexer.Spec.Spelled x.1 x.2) : ∀ x, x ∈ ls → WellSpelled x.1 x.2 := by
  induction h with
  | nil => intro x hx; cases hx
  | @snoc ls ts kl kt u _ hk ih =>
    intro x hx
    rw [List.mem_append, List.mem_singleton] at hx
    rcases hx with hx | rfl
    · exact ih (fun y hy => hs y (List.mem_append_left _ hy)) x hx
    · have := hs (kt, u) (by simp)
      rcases hk with rfl | ⟨rfl, rfl⟩
      · exact Or.inl this
      · exact Or.inr ⟨rfl, this⟩

/-- **C80.**  Every leaf of the tree of a file is spelled as its kind says. -/
theorem leaves_spelled {text : Text} {kind : Kind} {tree : Green} {errors : List SyntaxError}
    (h : parse text = .ok kind tree errors) : ∀ x, x ∈ tree.leaves → WellSpelled x.1 x.2 := by
  obtain ⟨ts, h1, h2⟩ := parse_leaves h
  exact sameTokens_spelled h2 (lexes_spelled h1)

theorem element_leaves {off : Nat} {g : Green} {e : Element} (h : e ∈ elements off g) :
    match e with
    | .token t => (t.kind, t.text) ∈ g.leaves
    | .node n => ∀ x, x ∈ n.kids.leaves → x ∈ g.leaves := by
  induction g with
  | nil => cases h
  | leaf init k t ih =>
    rw [elements, List.mem_append, List.mem_singleton] at h
    rcases h with h | rfl
    · have := ih h
      cases e with
      | token t' => exact List.mem_append_left _ this
      | node n => intro x hx; exact List.mem_append_left _ (this x hx)
    · simp [Green.leaves]
  | node init k kids ih _ =>
    rw [elements, List.mem_append, List.mem_singleton] at h
    rcases h with h | rfl
    · have := ih h
      cases e with
      | token t' => exact List.mem_append_left _ this
      | node n => intro x hx; exact List.mem_append_left _ (this x hx)
    · intro x hx; exact List.mem_append_right _ hx

/-- **C80.**  Every token of every node of a parsed file is spelled as its kind says. -/
theorem tokens_spelled {text : Text} {p : Parse} (h : parseFile text = some p) (n : SyntaxNode)
    (hb : Below p.syntaxNode n) (t : SyntaxToken) (ht : Element.token t ∈ n.childrenWithTokens) :
    WellSpelled t.kind t.text := by
  have h1 : ∀ x, x ∈ n.kids.leaves → x ∈ p.green.leaves := by
    clear ht
    induction hb with
    | refl => intro x hx; exact hx
    | child p' c _ hc ih =>
      intro x hx
      have he : ∀ x, x ∈ c.kids.leaves → x ∈ p'.kids.leaves := element_leaves (mem_children hc)
      exact ih x (he x hx)
  have h2 := element_leaves ht
  unfold parseFile at h
  split at h
  next kind green errors hp =>
    cases h
    exact leaves_spelled hp _ (h1 _ h2)
  · cases h

/-- The words and symbols of the language. -/
def fixedTokens : List (String × Kind) := keywordKinds ++ punctuation

theorem fixed_spelling {s : String} {k : Kind} (hm : (s, k) ∈ fixedTokens) {u : Text} :
    WellSpelled k u ↔ u = s.toList := by
  have hs : Lexer.Spec.Spelled k s.toList := by
    rcases List.mem_append.1 hm with h | h
    · exact .keyword h
    · exact .symbol h
  have hk : k ≠ .DIEM_ADDRESS ∧ k ≠ .IDENT ∧ k ≠ .WHITESPACE ∧ k ≠ .COMMENT ∧ k ≠ .INTEGER_NUMBER ∧ k ≠ .BYTE_STRING := by
    have : ∀ e ∈ fixedTokens, e.2 ≠ .DIEM_ADDRESS ∧ e.2 ≠ .IDENT ∧ e.2 ≠ .WHITESPACE ∧ e.2 ≠ .COMMENT ∧
        e.2 ≠ .INTEGER_NUMBER ∧ e.2 ≠ .BYTE_STRING := by decide +kernel
    exact this _ hm
  have hinj : ∀ e ∈ fixedTokens, ∀ e' ∈ fixedTokens, e.2 = e'.2 → e.1 = e'.1 := by decide +kernel
  constructor
  · rintro (h | ⟨h, _⟩)
    · cases h with
      | @keyword s' _ h' => exact congrArg String.toList (hinj (s', k) (List.mem_append_left _ h') (s, k) hm rfl)
      | @symbol s' _ h' => exact congrArg String.toList (hinj (s', k) (List.mem_append_right _ h') (s, k) hm rfl)
      | ident => exact absurd rfl hk.2.1
      | whitespace => exact absurd rfl hk.2.2.1
      | comment => exact absurd rfl hk.2.2.2.1
      | lastComment => exact absurd rfl hk.2.2.2.1
      | decimal => exact absurd rfl hk.2.2.2.2.1
      | hex => exact absurd rfl hk.2.2.2.2.1
      | bytes => exact absurd rfl hk.2.2.2.2.2
      | cutBytes => exact absurd rfl hk.2.2.2.2.2
    · exact absurd h hk.1
  · rintro rfl; exact Or.inl hs

theorem wellSpelled_kind {s : String} {k k' : Kind} (hm : (s, k) ∈ fixedTokens) (h : WellSpelled k' s.toList) : k' = k := by
  have hs : Lexer.Spec.Spelled k s.toList := by
    rcases List.mem_append.1 hm with h | h
    · exact .keyword h
    · exact .symbol h
  rcases h with h | ⟨_, h⟩
  · exact spelled_unique h hs
  · have : k = .INTEGER_NUMBER := spelled_unique hs h
    have hno : ∀ e ∈ fixedTokens, e.2 ≠ .INTEGER_NUMBER := by decide +kernel
    exact absurd this (hno _ hm)

/-- The tokens directly below a node. -/
def SyntaxNode.tokens (n : SyntaxNode) : List SyntaxToken := n.childrenWithTokens.filterMap Element.intoToken

theorem find_congr {α : Type} {p q : α → Bool} {l : List α} (h : ∀ x, x ∈ l → p x = q x) : l.find? p = l.find? q := by
  induction l with
  | nil => rfl
  | cons a l ih =>
    rw [List.find?_cons, List.find?_cons, h a (by simp), ih fun x hx => h x (by simp [hx])]

/-- On a node of a parsed file, looking for a word or a symbol by its kind is looking for its text. -/
theorem token_by_text {text : Text} {p : Parse} (h : parseFile text = some p) (n : SyntaxNode)
    (hb : Below p.syntaxNode n) {s : String} {k : Kind} (hm : (s, k) ∈ fixedTokens) :
    token n k = n.tokens.find? fun t => decide (t.text = s.toList) := by
  unfold token SyntaxNode.tokens
  apply find_congr
  intro t ht
  obtain ⟨e, he, hte⟩ := List.mem_filterMap.1 ht
  cases e with
  | node => cases hte
  | token t' =>
    cases hte
    have hw := tokens_spelled h n hb t he
    by_cases hk : t.kind = k
    · have : t.text = s.toList := (fixed_spelling hm).1 (hk ▸ hw)
      simp [hk, this]
    · have : t.text ≠ s.toList := by
        intro e
        rw [e] at hw
        exact hk (wellSpelled_kind hm hw)
      simp [hk, this]

/-- **C80.**  In a parsed file each token accessor yields the first direct token with the text it is named
after. -/
theorem accessor_texts {text : Text} {p : Parse} (h : parseFile text = some p) :
    (∀ n : ScriptDef, Below p.syntaxNode n.syn →
      n.lBraceToken = n.syn.tokens.find? (fun t => decide (t.text = "{".toList)) ∧
      n.rBraceToken = n.syn.tokens.find? (fun t => decide (t.text = "}".toList))) ∧
    (∀ n : FunctionDef, Below p.syntaxNode n.syn →
      n.funToken = n.syn.tokens.find? (fun t => decide (t.text = "fun".toList)) ∧
      n.lParenToken = n.syn.tokens.find? (fun t => decide (t.text = "(".toList)) ∧
      n.rParenToken = n.syn.tokens.find? (fun t => decide (t.text = ")".toList)) ∧
      n.lBraceToken = n.syn.tokens.find? (fun t => decide (t.text = "{".toList)) ∧
      n.rBraceToken = n.syn.tokens.find? (fun t => decide (t.text = "}".toList))) ∧
    (∀ n : ExprStmt, Below p.syntaxNode n.syn →
      n.semicolonToken = n.syn.tokens.find? (fun t => decide (t.text = ";".toList))) ∧
    (∀ n : BinExpr, Below p.syntaxNode n.syn →
      n.plusToken = n.syn.tokens.find? (fun t => decide (t.text = "+".toList)) ∧
      n.minusToken = n.syn.tokens.find? (fun t => decide (t.text = "-".toList)) ∧
      n.starToken = n.syn.tokens.find? (fun t => decide (t.text = "*".toList)) ∧
      n.slashToken = n.syn.tokens.find? (fun t => decide (t.text = "/".toList)) ∧
      n.modToken = n.syn.tokens.find? (fun t => decide (t.text = "%".toList))) ∧
    (∀ n : Literal, Below p.syntaxNode n.syn →
      n.trueToken = n.syn.tokens.find? (fun t => decide (t.text = "true".toList)) ∧
      n.falseToken = n.syn.tokens.find? (fun t => decide (t.text = "false".toList))) := by
  refine ⟨fun n hb => ?_, fun n hb => ?_, fun n hb => ?_, fun n hb => ?_, fun n hb => ?_⟩
  · exact ⟨token_by_text h _ hb (by decide), token_by_text h _ hb (by decide)⟩
  · exact ⟨token_by_text h _ hb (by decide), token_by_text h _ hb (by decide), token_by_text h _ hb (by decide),
      token_by_text h _ hb (by decide), token_by_text h _ hb (by decide)⟩
  · exact token_by_text h _ hb (by decide)
  · exact ⟨token_by_text h _ hb (by decide), token_by_text h _ hb (by decide), token_by_text h _ hb (by decide),
      token_by_text h _ hb (by decide), token_by_text h _ hb (by decide)⟩
  · exact ⟨token_by_text h _ hb (by decide), token_by_text h _ hb (by decide)⟩

/-- **C80.**  The name of a function is spelled as a name: `ident_token` never yields a keyword. -/
theorem ident_token_is_name {text : Text} {p : Parse} (h : parseFile text = some p) (n : FunctionDef)
    (hb : Below p.syntaxNode n.syn) (t : SyntaxToken) (ht : n.identToken = some t) :
    (∀ c, c ∈ t.text → wordChar c = true) ∧ (∃ c w, t.text = c :: w ∧ wordStart c = true) ∧
      ∀ s k, (s, k) ∈ keywordKinds → t.text ≠ s.toList := by
  obtain ⟨b, a, e, hk, _⟩ := (token_spec _ _ _).1 ht
  have hw := tokens_spelled h n.syn hb t (by rw [e]; simp)
  rw [hk] at hw
  rcases hw with hw | ⟨hw, _⟩
  · generalize ht : t.text = u at hw
    generalize hki : Kind.IDENT = k at hw
    cases hw with
    | @keyword s _ hm =>
      have hno : ∀ e ∈ keywordKinds, e.2 ≠ .IDENT := by decide +kernel
      exact absurd hki.symm (hno _ hm)
    | @symbol s _ hm =>
      have hno : ∀ e ∈ punctuation, e.2 ≠ .IDENT := by decide +kernel
      exact absurd hki.symm (hno _ hm)
    | @ident c w hc hw hk =>
      refine ⟨?_, ⟨c, w, rfl, hc⟩, fun s k hm e => hk s k hm e.symm⟩
      intro x hx
      rcases List.mem_cons.1 hx with rfl | hx
      · unfold wordStart at hc
        unfold wordChar
        simp only [Bool.or_eq_true, Char.isAlphanum] at hc ⊢
        rcases hc with hc | hc
        · exact Or.inl (Or.inl hc)
        · exact Or.inr hc
      · exact hw x hx
    | _ => cases hki
  · cases hw

example : (binExprs "script { fun main() { 1 + 2; } }".toList).map (fun b => (b.plusToken.map (·.text), b.minusToken.map (·.text))) =
    [(some "+".toList, none)] := by decide +kernel

end Verif.Ast
