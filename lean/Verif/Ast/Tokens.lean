import Verif.Ast.Spelling

set_option autoImplicit false

/-!
C110: the typed tokens, `/repo/crates/syntax/src/ast/tokens.rs`, and which tokens of a file they are.
-/

namespace Verif.Ast

open Parser Lexer

/-- ast.rs:43-58, `AstToken`. -/
class AstToken (α : Type) where
  canCast : Kind → Bool
  cast : SyntaxToken → Option α
  syn : α → SyntaxToken

/-- ast.rs:55-57, `text`. -/
def AstToken.text {α : Type} [AstToken α] (a : α) : Text := (AstToken.syn a).text

/-- tokens.rs:8-11, `Whitespace`. -/
structure Whitespace where
  syn : SyntaxToken
  deriving DecidableEq, Repr

/-- tokens.rs:17-27. -/
instance : AstToken Whitespace where
  canCast kind := kind == .WHITESPACE
  cast t := if t.kind == .WHITESPACE then some ⟨t⟩ else none
  syn := Whitespace.syn

/-- tokens.rs:29-32, `Comment`. -/
structure Comment where
  syn : SyntaxToken
  deriving DecidableEq, Repr

/-- tokens.rs:38-48. -/
instance : AstToken Comment where
  canCast kind := kind == .COMMENT
  cast t := if t.kind == .COMMENT then some ⟨t⟩ else none
  syn := Comment.syn

/-- tokens.rs:50-53, `HexString`. -/
structure HexString where
  syn : SyntaxToken
  deriving DecidableEq, Repr

/-- tokens.rs:59-69. -/
instance : AstToken HexString where
  canCast kind := kind == .HEX_STRING
  cast t := if t.kind == .HEX_STRING then some ⟨t⟩ else none
  syn := HexString.syn

/-- tokens.rs:71-74, `ByteString`. -/
structure ByteString where
  syn : SyntaxToken
  deriving DecidableEq, Repr

/-- tokens.rs:80-90. -/
instance : AstToken ByteString where
  canCast kind := kind == .BYTE_STRING
  cast t := if t.kind == .BYTE_STRING then some ⟨t⟩ else none
  syn := ByteString.syn

/-- tokens.rs:92-95, `IntegerNumber`. -/
structure IntegerNumber where
  syn : SyntaxToken
  deriving DecidableEq, Repr

/-- tokens.rs:101-111. -/
instance : AstToken IntegerNumber where
  canCast kind := kind == .INTEGER_NUMBER
  cast t := if t.kind == .INTEGER_NUMBER then some ⟨t⟩ else none
  syn := IntegerNumber.syn

/-! ### Specification -/

/-- What a token looks like. -/
inductive Form where
  | blank
  | comment
  | number
  /-- `b"…"` -/
  | bytes
  /-- `x"…"` -/
  | hex
  | other
  deriving DecidableEq, Repr

/-- The first two characters tell. -/
def formOf (u : Text) : Form :=
  match u with
  | c :: r =>
    if c = ' ' ∨ c = '\t' ∨ c = '\n' ∨ c = '\r' then .blank
    else if c = '/' ∧ r.head? = some '/' then .comment
    else if c.isDigit then .number
    else if c = 'b' ∧ r.head? = some '"' then .bytes
    else if c = 'x' ∧ r.head? = some '"' then .hex
    else .other
  | [] => .other

/-- `α` is the class of the tokens of the kind `k`: `can_cast` agrees with `cast`, and the class wraps the token it is made from. -/
structure IsTokenView (α : Type) [AstToken α] (k : Kind) : Prop where
  canCast : ∀ k', AstToken.canCast α k' = true ↔ k' = k
  isSome : ∀ t : SyntaxToken, (AstToken.cast (α := α) t).isSome = true ↔ t.kind = k
  syn : ∀ (t : SyntaxToken) (a : α), AstToken.cast t = some a → AstToken.syn a = t ∧ AstToken.text a = t.text

theorem isTokenView_of {α : Type} [AstToken α] (k : Kind) (mk : SyntaxToken → α)
    (h1 : ∀ k', AstToken.canCast α k' = (k' == k)) (h2 : ∀ t, AstToken.cast (α := α) t = if t.kind == k then some (mk t) else none)
    (h3 : ∀ t, AstToken.syn (mk t) = t) : IsTokenView α k where
  canCast k' := by rw [h1]; exact beq_iff_eq
  isSome t := by
    rw [h2]
    by_cases h : t.kind = k
    · simp [h]
    · simp [h]
  syn t a h := by
    rw [h2] at h
    split at h
    · cases h
      exact ⟨h3 t, by rw [AstToken.text, h3]⟩
    · cases h

/-- **C110.**  The five classes are views of tokens. -/
theorem token_views : IsTokenView Whitespace .WHITESPACE ∧ IsTokenView Comment .COMMENT ∧ IsTokenView HexString .HEX_STRING ∧
    IsTokenView ByteString .BYTE_STRING ∧ IsTokenView IntegerNumber .INTEGER_NUMBER :=
  ⟨isTokenView_of _ Whitespace.mk (fun _ => rfl) (fun _ => rfl) (fun _ => rfl),
    isTokenView_of _ Comment.mk (fun _ => rfl) (fun _ => rfl) (fun _ => rfl),
    isTokenView_of _ HexString.mk (fun _ => rfl) (fun _ => rfl) (fun _ => rfl),
    isTokenView_of _ ByteString.mk (fun _ => rfl) (fun _ => rfl) (fun _ => rfl),
    isTokenView_of _ IntegerNumber.mk (fun _ => rfl) (fun _ => rfl) (fun _ => rfl)⟩

/-- The forms a token of a kind can have. -/
def formsOfKind (k : Kind) : List Form :=
  match k with
  | .WHITESPACE => [.blank]
  | .COMMENT => [.comment]
  | .INTEGER_NUMBER => [.number]
  | .DIEM_ADDRESS => [.number]
  | .BYTE_STRING => [.bytes, .hex]
  | _ => [.other]

theorem word_form {c : Char} {w : Text} (hc : wordStart c = true) (hw : ∀ x, x ∈ w → wordChar x = true) :
    formOf (c :: w) = .other := by
  have h1 : ¬ (c = ' ' ∨ c = '\t' ∨ c = '\n' ∨ c = '\r') := by
    rintro (rfl | rfl | rfl | rfl) <;> exact absurd hc (by decide)
  have h2 : c ≠ '/' := by rintro rfl; exact absurd hc (by decide)
  have h3 : c.isDigit = false := by
    cases h : c.isDigit with
    | false => rfl
    | true =>
      exfalso
      simp only [wordStart, Bool.or_eq_true, beq_iff_eq] at hc
      rcases hc with hc | rfl
      · simp only [Char.isDigit, Char.isAlpha, Char.isUpper, Char.isLower, Bool.or_eq_true, Bool.and_eq_true, decide_eq_true_eq] at h hc
        rcases hc with ⟨a, b⟩ | ⟨a, b⟩
        · exact absurd (UInt32.le_trans a h.2) (by decide)
        · exact absurd (UInt32.le_trans a h.2) (by decide)
      · exact absurd h (by decide)
  have h4 : w.head? ≠ some '"' := by
    cases w with
    | nil => simp
    | cons x w =>
      intro e
      cases e
      exact absurd (hw '"' List.mem_cons_self) (by decide)
  simp [formOf, h1, h2, h3, h4]

theorem spelled_form {k : Kind} {u : Text} (h : Lexer.Spec.Spelled k u) : formOf u ∈ formsOfKind k ∧ k ≠ .HEX_STRING := by
  have table : ∀ e ∈ fixedTokens, formOf e.1.toList ∈ formsOfKind e.2 ∧ e.2 ≠ .HEX_STRING := by decide +kernel
  have digits : ∀ {c : Char} (r : Text), c.isDigit = true → formOf (c :: r) = .number := by
    intro c r hc
    have h1 : ¬ (c = ' ' ∨ c = '\t' ∨ c = '\n' ∨ c = '\r') := by
      rintro (rfl | rfl | rfl | rfl) <;> exact absurd hc (by decide)
    have h2 : c ≠ '/' := by rintro rfl; exact absurd hc (by decide)
    simp [formOf, h1, h2, hc]
  cases h with
  | @keyword s _ h => exact table (s, k) (List.mem_append_left _ h)
  | @symbol s _ h => exact table (s, k) (List.mem_append_right _ h)
  | ident h1 h2 _ =>
    rw [word_form h1 h2]
    decide
  | whitespace h1 h2 =>
    cases u with
    | nil => exact absurd rfl h1
    | cons c r =>
      have := h2 c List.mem_cons_self
      have hb : c = ' ' ∨ c = '\t' ∨ c = '\n' ∨ c = '\r' := by
        rcases this with h | h | h <;> simp [h]
      simp only [formOf, hb, if_true]
      decide
  | comment => exact ⟨by simp [formOf, formsOfKind], by decide⟩
  | lastComment => exact ⟨by simp [formOf, formsOfKind], by decide⟩
  | @decimal ds sfx h1 h2 _ =>
    cases ds with
    | nil => exact absurd rfl h1
    | cons c r =>
      rw [List.cons_append, digits _ (h2 c List.mem_cons_self)]
      decide
  | hex => exact ⟨by rw [digits _ (by decide)]; decide, by decide⟩
  | bytes hq _ => rcases hq with rfl | rfl <;> exact ⟨by simp [formOf, formsOfKind, Char.isDigit], by decide⟩
  | cutBytes hq _ => rcases hq with rfl | rfl <;> exact ⟨by simp [formOf, formsOfKind, Char.isDigit], by decide⟩

theorem wellSpelled_form {k : Kind} {u : Text} (h : WellSpelled k u) : formOf u ∈ formsOfKind k ∧ k ≠ .HEX_STRING := by
  rcases h with h | ⟨rfl, h⟩
  · exact spelled_form h
  · exact ⟨(spelled_form h).1, by decide⟩

/-- **C110, partial.**  In a parsed file the casts tell what a token looks like: blanks are `Whitespace`, comments are `Comment`, numbers
are `IntegerNumber` except in addresses, and strings of both kinds are `ByteString`.  Missing: `x"…"` should be `HexString`. -/
theorem token_casts_partial {text : Text} {p : Parse} (h : parseFile text = some p) (n : SyntaxNode)
    (hb : Below p.syntaxNode n) (t : SyntaxToken) (ht : Element.token t ∈ n.childrenWithTokens) :
    ((AstToken.cast (α := Whitespace) t).isSome = true ↔ formOf t.text = .blank) ∧
    ((AstToken.cast (α := Comment) t).isSome = true ↔ formOf t.text = .comment) ∧
    ((AstToken.cast (α := IntegerNumber) t).isSome = true ↔ formOf t.text = .number ∧ t.kind ≠ .DIEM_ADDRESS) ∧
    ((AstToken.cast (α := ByteString) t).isSome = true ↔ formOf t.text = .bytes ∨ formOf t.text = .hex) := by
  obtain ⟨h1, h2⟩ := wellSpelled_form (tokens_spelled h n hb t ht)
  obtain ⟨v1, v2, _, v4, v5⟩ := token_views
  rw [v1.isSome, v2.isSome, v4.isSome, v5.isSome]
  have key : ∀ (k : Kind) (f : Form), f ∈ formsOfKind k → ((k = .WHITESPACE ↔ f = .blank) ∧ (k = .COMMENT ↔ f = .comment) ∧
      (k = .INTEGER_NUMBER ↔ f = .number ∧ k ≠ .DIEM_ADDRESS) ∧ (k = .BYTE_STRING ↔ f = .bytes ∨ f = .hex)) := by
    intro k f
    cases k <;> cases f <;> decide
  exact key _ _ h1

/-- **C110 is violated**: no token of any file is a `HexString`. -/
theorem no_hex_strings {text : Text} {p : Parse} (h : parseFile text = some p) (n : SyntaxNode)
    (hb : Below p.syntaxNode n) (t : SyntaxToken) (ht : Element.token t ∈ n.childrenWithTokens) :
    AstToken.cast (α := HexString) t = none := by
  obtain ⟨_, h2⟩ := wellSpelled_form (tokens_spelled h n hb t ht)
  have := token_views.2.2.1.isSome t
  cases e : AstToken.cast (α := HexString) t with
  | none => rfl
  | some a =>
    rw [e] at this
    exact absurd (this.1 rfl) h2

/-- The tokens of a text. -/
def tokensOf (text : Text) : List SyntaxToken :=
  match parseFile text with
  | some p => (descendants 20 p.syntaxNode).flatMap fun n => n.childrenWithTokens.filterMap Element.intoToken
  | none => []

/-- Witness of `token_casts_partial`, and of the violation: a string in hexadecimal digits is a `ByteString`. -/
theorem hex_string_is_byte_string :
    ((tokensOf "script { fun main() { x\"0a\"; } }".toList).filter fun t => formOf t.text == .hex).map
      (fun t => (t.text, (AstToken.cast (α := HexString) t).isSome, (AstToken.cast (α := ByteString) t).isSome)) =
    [("x\"0a\"".toList, false, true)] := by decide +kernel

/-- Witness: a comment, a number, and the number of an address, which is no `IntegerNumber`. -/
example : ((tokensOf "// c\nmodule 0x1::M { fun f() { 12; } }".toList).filter
      fun t => decide (formOf t.text = .number ∨ formOf t.text = .comment)).map
      (fun t => (t.text, (AstToken.cast (α := IntegerNumber) t).isSome, (AstToken.cast (α := Comment) t).isSome)) =
    [("// c\n".toList, false, true), ("0x1".toList, false, false), ("12".toList, true, false)] := by decide +kernel

end Verif.Ast
