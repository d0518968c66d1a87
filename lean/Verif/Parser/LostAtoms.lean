import Verif.Parser.LostGrammar

set_option autoImplicit false

/-! The check of `Verif.Parser.LostCheck` for atoms of expressions. -/

namespace Verif.Parser

open Kind

variable {k : Kind} {c : Nat}

/-! expressions/atom.rs -/

theorem ck_bumpAddress {Q : Bool → Kind → Nat → Prop} (hc : 1 ≤ c) (ht : ∀ y, Q true y (c - 1 + GAIN))
    (hf : Q false k c) : Ck bumpAddress k c Q := by
  unfold bumpAddress
  cka
  all_goals first | exact ht _ | exact hf

macro_rules | `(tactic| ckr) => `(tactic| ((with_reducible apply ck_bumpAddress ?_ (fun _ => ?_) ?_); omega))

theorem ck_addressLit (hc : 2 ≤ c) :
    Ck addressLit k c fun _ _ c' => Paid (True) c c' 2 0 := by
  unfold addressLit
  cka
  ckend

macro_rules | `(tactic| ckr) => `(tactic| cku ck_addressLit)

theorem ck_literal {Q : Option Completed → Kind → Nat → Prop} (hc : 2 ≤ c)
    (hn : LITERAL_FIRST.contains k = false → Q none k c)
    (hs : LITERAL_FIRST.contains k = true → ∀ r y c', c + GAIN ≤ c' + 2 → Q (some r) y c') : Ck literal k c Q := by
  have h0 : LITERAL_FIRST.contains EOF = false := by decide
  unfold literal
  cka
  all_goals first
    | exact hn ‹_›
    | (refine hs ‹_› _ _ _ ?_; omega)
    | (exfalso; simp_all; done)

set_option hygiene false in
macro_rules | `(tactic| ckr) => `(tactic|
  ((with_reducible apply ck_literal ?_ (fun hcond => ?_) (fun hcond _ _ _ _ => ?_)); omega; all_goals ckc hcond))

theorem ck_expr (hc : 3 ≤ c) : Ck expr k c fun _ _ c' => Paid (k ≠ R_PAREN ∧ k ≠ EOF ∧ k ≠ SEMICOLON) c c' 5 0 :=
  ck_call hc fun _ _ _ h => h.2

macro_rules | `(tactic| ckr) => `(tactic| cku ck_expr)

theorem ck_parenExpr (hc : 2 ≤ c) :
    Ck parenExpr k c fun _ _ c' => Paid (True) c c' 5 0 := by
  unfold parenExpr
  cka
  ckend

macro_rules | `(tactic| ckr) => `(tactic| cku ck_parenExpr)

theorem ck_blockExprUnchecked (hc : 2 ≤ c) :
    Ck blockExprUnchecked k c fun _ _ c' => Paid (True) c c' 5 0 := by
  unfold blockExprUnchecked
  cka
  ckend

macro_rules | `(tactic| ckr) => `(tactic| cku ck_blockExprUnchecked)

theorem ck_blockExpr (hc : 3 ≤ c) :
    Ck blockExpr k c fun _ _ c' => Paid (False) c c' 0 1 := by
  unfold blockExpr
  cka
  ckend

macro_rules | `(tactic| ckr) => `(tactic| cku ck_blockExpr)

theorem ck_recordExprField (hc : 4 ≤ c) :
    Ck recordExprField k c fun _ _ c' => Paid (k ≠ R_BRACE ∧ k ≠ EOF) c c' 6 0 := by
  unfold recordExprField
  cka
  ckend

macro_rules | `(tactic| ckr) => `(tactic| cku ck_recordExprField)

theorem ck_recordExprFieldList (hc : 2 ≤ c) :
    Ck recordExprFieldList k c fun _ _ c' => Paid (True) c c' 5 0 := by
  unfold recordExprFieldList
  cka
  ckend

macro_rules | `(tactic| ckr) => `(tactic| cku ck_recordExprFieldList)

theorem ck_pathExpr (hc : 3 ≤ c) :
    Ck pathExpr IDENT c fun _ _ c' => Paid (True) c c' 5 0 := by
  unfold pathExpr
  cka
  ckend

macro_rules | `(tactic| ckr) => `(tactic| cku ck_pathExpr)

theorem ck_atomExpr (hc : 3 ≤ c) :
    Ck atomExpr k c fun _ _ c' => Paid (k ≠ R_PAREN ∧ k ≠ EOF ∧ k ≠ SEMICOLON) c c' 5 0 := by
  unfold atomExpr
  have h1 : (TokenSet.new [SEMICOLON, R_PAREN]).contains k = true ↔ k = SEMICOLON ∨ k = R_PAREN := by
    rw [TokenSet.contains_new]; simp
  cka
  ckend

macro_rules | `(tactic| ckr) => `(tactic| cku ck_atomExpr)

end Verif.Parser
