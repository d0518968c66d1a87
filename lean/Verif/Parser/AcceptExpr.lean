import Verif.Parser.AcceptItems

set_option autoImplicit false

/-! The parser accepts expressions and statements, rule by rule. -/

namespace Verif.Parser

open Language

theorem Head.mono {ks ls : List Kind} {w : List Tok} (h : Head ks w) (hs : ∀ k ∈ ks, k ∈ ls) :
    Head ls w := by
  obtain ⟨t, w', rfl, hk⟩ := h
  exact ⟨t, w', rfl, hs _ hk⟩

theorem Head.append {ks : List Kind} {w : List Tok} (h : Head ks w) (v : List Tok) :
    Head ks (w ++ v) := by
  obtain ⟨t, w', rfl, hk⟩ := h
  exact ⟨t, w' ++ v, rfl, hk⟩

/-- The first token is none of the kinds an instance cannot start with. -/
theorem Head.ne {ks : List Kind} {w : List Tok} (h : Head ks w) {k : Kind} (hk : k ∉ ks)
    (v : List Tok) : kind0 (w ++ v) ≠ k := by
  obtain ⟨t, w', rfl, ht⟩ := h
  rintro rfl
  exact hk ht

theorem atom_expr_heads : ∀ k ∈ atomHeads, k ∈ exprHeads := fun _ h => List.mem_append_right _ h

/-! ### Loops that stop -/

theorem wp_postfixLoop {c : Completed} {w : List Tok} {u n : Nat} {i : Forest}
    {o : List (Forest × Forest)} {Q : Completed → TState → Prop} (h : AfterUnary w)
    (hQ : Q c ⟨w, u, n, i, o⟩) : WP (body (.postfixLoop c)) ⟨w, u, n, i, o⟩ Q := by
  simp only [body, postfixLoopBody]
  steps [kind_beq_ne h.2.2.1, kind_beq_ne h.2.2.2]
  exact hQ

theorem wp_exprBpLoop {bp : Nat} {c : Completed} {w : List Tok} {u n : Nat} {i : Forest}
    {o : List (Forest × Forest)} {Q : Completed → TState → Prop} (h : (opTable (kind0 w)).1 < bp)
    (hQ : Q c ⟨w, u, n, i, o⟩) : WP (body (.exprBpLoop bp c)) ⟨w, u, n, i, o⟩ Q := by
  simp only [body, exprBpLoopBody, currentOp]
  steps [h]
  exact hQ

theorem opTable_le (k : Kind) : (opTable k).1 ≤ 11 := by cases k <;> decide

/-! ### Operators -/

theorem acc_expr_up {q : Nat} {w : List Tok} {sh : List Shape} (h : Acc (.expr (q + 1)) w sh) :
    Acc (.expr q) w sh :=
  ⟨h.1, fun bp h1 h2 rest u n i o hc hf Q hQ =>
    h.2 bp h1 (Nat.le_succ_of_le h2) rest u n i o hc ⟨hf.1, Nat.le_succ_of_le hf.2⟩ Q hQ⟩

theorem acc_expr_unary {w : List Tok} {sh : List Shape} (h : Acc .unary w sh) :
    Acc (.expr 12) w sh := by
  refine ⟨h.1, ?_⟩
  intro bp h1 h2 rest u n i o hc hf Q hQ
  simp only [body, exprBpBody]
  refine WP.bind (h.2 _ _ _ _ _ hc hf.1 _ fun c u1 n1 k pre kids c1 g1 => ?_)
  refine WP.call ?_
  simp only [wp_pure]
  exact hQ _ _ _ _ _ _ c1 g1

/-- The binary operators of the grammar are those of the parser, with the same precedence. -/
theorem precedence_opTable {op : Kind} {q : Nat} (h : precedence op = some q) :
    opTable op = (q, op) ∧ 1 ≤ q ∧ q ≤ 11 ∧ (op ≠ .WHITESPACE ∧ op ≠ .COMMENT) ∧
      op ≠ .COLON_COLON ∧ op ≠ .L_BRACE ∧ op ≠ .L_PAREN ∧ op ≠ .DOT := by
  cases op <;> simp [precedence] at h <;> subst h <;> decide

theorem acc_expr_bin {q : Nat} {op : Kind} {w v : List Tok} {sh shv : List Shape} {t : Text}
    {l1 l2 : Kind} (hp : precedence op = some q) (h : Acc (.expr q) w sh)
    (h' : Acc (.expr (q + 1)) v shv) :
    Acc (.expr q) (w ++ ⟨op, t, l1, l2⟩ :: v) [.node .BIN_EXPR (sh ++ .leaf op :: shv)] := by
  obtain ⟨ho, hq1, hq2, ht, e1, e2, e3, e4⟩ := precedence_opTable hp
  have hz : (if op = .IDENT then 1 else 0) = 0 := if_neg (by rintro rfl; cases hp)
  refine ⟨h.1.append _, ?_⟩
  intro bp h1 h2 rest u n i o hc hf Q hQ
  rw [List.append_assoc]
  refine h.2 bp h1 h2 _ _ _ _ _ (by clean hc) ?_ _ fun c u1 n1 k pre kids c1 g1 => ?_
  · refine ⟨⟨?_, ?_, ?_, ?_⟩, ?_⟩ <;> simp only [List.cons_append, kind0_cons, ho] <;>
      first | assumption | exact Nat.le_refl _
  · simp only [body, exprBpLoopBody, currentOp]
    steps [ho, Nat.not_lt.2 h2]
    rw [kind0_cons, ho]
    refine WP.call (h'.2 (q + 1) (by omega) (Nat.le_refl _) _ _ _ _ _ (by clean hc)
      ⟨hf.1, Nat.le_succ_of_le hf.2⟩ _ fun c' u2 n2 k' pre' kids' c2 g2 => ?_)
    refine wp_exprBpLoop (Nat.lt_succ_of_le hf.2) ?_
    steps []
    exact WP.last (hQ _ _ _ _ _ _ (by count) (by
      obtain ⟨rfl, e1, e2⟩ := g1
      obtain ⟨rfl, e3, e4⟩ := g2
      grow [e1, e2, e3, e4, ht.1, ht.2]))

theorem acc_unary_prefix {op : Kind} {w : List Tok} {sh : List Shape} {t : Text} {l1 l2 : Kind}
    (hop : op = .STAR ∨ op = .BANG ∨ op = .MINUS) (h : Acc .unary w sh) :
    Acc .unary (⟨op, t, l1, l2⟩ :: w) [.node .PREFIX_EXPR (.leaf op :: sh)] := by
  refine ⟨⟨_, _, rfl, ?_⟩, ?_⟩
  · rcases hop with rfl | rfl | rfl <;> simp [exprHeads]
  intro rest u n i o hc hf Q hQ
  have h1 : (op == .STAR || op == .BANG || op == .MINUS) = true := by
    rcases hop with rfl | rfl | rfl <;> rfl
  have h2 : op ≠ .EOF := by rcases hop with rfl | rfl | rfl <;> decide
  have hz : (if op = .IDENT then 1 else 0) = 0 := by rcases hop with rfl | rfl | rfl <;> rfl
  have h3 : op ≠ .WHITESPACE ∧ op ≠ .COMMENT := by rcases hop with rfl | rfl | rfl <;> decide
  simp only [lhsExpr]
  steps [h1, h2]
  refine WP.call ?_
  simp only [body, exprBpBody]
  refine WP.bind (h.2 _ _ _ _ _ (by clean hc) hf _ fun c u1 n1 k pre kids c1 g1 => ?_)
  refine WP.call (wp_exprBpLoop (Nat.lt_of_le_of_lt (opTable_le _) (by decide)) ?_)
  steps []
  exact hQ _ _ _ _ _ _ (by count) (by
    obtain ⟨rfl, e1, e2⟩ := g1
    grow [e1, e2, h3.1, h3.2])

theorem acc_unary_postfixed {w : List Tok} {sh : List Shape} (h : Acc .postfixed w sh) :
    Acc .unary w sh := by
  refine ⟨h.1.mono atom_expr_heads, ?_⟩
  intro rest u n i o hc hf Q hQ
  exact h.2 _ _ _ _ _ hc ⟨hf.1, hf.2.1⟩ _ fun c u1 n1 k pre kids c1 g1 =>
    wp_postfixLoop hf (hQ _ _ _ _ _ _ c1 g1)

theorem acc_postfixed_atom {w : List Tok} {sh : List Shape} (h : Acc .atom w sh) :
    Acc .postfixed w sh := by
  refine ⟨h.1, ?_⟩
  intro rest u n i o hc hf Q hQ
  have e1 := h.1.ne (k := .STAR) (by decide) rest
  have e2 := h.1.ne (k := .BANG) (by decide) rest
  have e3 := h.1.ne (k := .MINUS) (by decide) rest
  simp only [lhsExpr]
  steps [kind_beq_ne e1, kind_beq_ne e2, kind_beq_ne e3, Bool.or_self]
  refine WP.bind (h.2 _ _ _ _ _ hc hf _ fun c u1 n1 k pre kids c1 g1 => ?_)
  refine WP.call ?_
  simp only [wp_pure]
  exact hQ _ _ _ _ _ _ c1 g1

theorem acc_postfixed_call {w v : List Tok} {sh shv : List Shape} (h : Acc .postfixed w sh)
    (h' : Acc .argList v shv) :
    Acc .postfixed (w ++ v) [.node .CALL_EXPR (sh ++ shv)] := by
  refine ⟨h.1.append _, ?_⟩
  intro rest u n i o hc hf Q hQ
  obtain ⟨⟨⟨k, t, l1, l2⟩, v, rfl, hk⟩, hv⟩ := h'
  obtain rfl : k = .L_PAREN := by simpa using hk
  rw [List.append_assoc]
  refine h.2 _ _ _ _ _ (by clean hc) (by after) _ fun c u1 n1 k pre kids c1 g1 => ?_
  simp only [body, postfixLoopBody, callExpr]
  steps []
  refine WP.bind (hv _ _ _ _ _ (by clean hc) trivial _ fun r u2 n2 i2 _ c2 g2 => ?_)
  steps []
  exact WP.last (hQ _ _ _ _ _ _ (by count) (by
    obtain ⟨rfl, e1, e2⟩ := g1
    grow [e1, e2, g2.1, g2.2]))

theorem acc_postfixed_dot {w v : List Tok} {sh shv : List Shape} {t : Text} {l1 l2 : Kind}
    (h : Acc .postfixed w sh) (h' : Acc .nameRef v shv) :
    Acc .postfixed (w ++ ⟨.DOT, t, l1, l2⟩ :: v) [.node .DOT_EXPR (sh ++ .leaf .DOT :: shv)] := by
  refine ⟨h.1.append _, ?_⟩
  intro rest u n i o hc hf Q hQ
  obtain ⟨t', m1, m2, rfl, rfl⟩ := h'
  rw [List.append_assoc]
  refine h.2 _ _ _ _ _ (by clean hc) (by after) _ fun c u1 n1 k pre kids c1 g1 => ?_
  simp only [body, postfixLoopBody, fieldExpr]
  steps []
  exact WP.last (hQ _ _ _ _ _ _ (by count) (by
    obtain ⟨rfl, e1, e2⟩ := g1
    grow [e1, e2]))

/-! ### A whole expression -/

/-- An expression that is not an operand: `expr` reads it and returns something. -/
theorem acc_expr {w : List Tok} {sh : List Shape} (h : Acc (.expr 1) w sh) :
    AcceptsR (body (.exprBp 1)) (fun r : Option Completed => r.isNone = false) AfterWhole 5 0 w sh := by
  intro rest u n i o hc hf Q hQ
  refine h.2 1 (Nat.le_refl _) (Nat.le_refl _) _ _ _ _ _ hc ⟨hf.1, by rw [hf.2]; omega⟩ _
    fun c u1 n1 k pre kids c1 g1 => ?_
  refine wp_exprBpLoop (by rw [hf.2]; omega) ?_
  exact hQ _ _ _ _ rfl c1 (by
    obtain ⟨rfl, e1, e2⟩ := g1
    grow [e1, e2])

/-! ### Arguments -/

theorem acc_args_nil : Acc .args [] [] := by
  rintro rest u n i o hc ⟨t, l1, l2, r, rfl⟩ Q hQ
  simp only [body, argLoopBody]
  steps []
  exact hQ _ _ _ _ trivial (by count) (by grow [])

theorem acc_args_one {w : List Tok} {sh : List Shape} (h : Acc (.expr 1) w sh) : Acc .args w sh := by
  rintro rest u n i o hc ⟨t, l1, l2, r, rfl⟩ Q hQ
  have e1 := h.1.ne (k := .R_PAREN) (by decide) (⟨.R_PAREN, t, l1, l2⟩ :: r)
  have e2 := h.1.ne (k := .EOF) (by decide) (⟨.R_PAREN, t, l1, l2⟩ :: r)
  simp only [body, argLoopBody, expr]
  steps [e1, e2]
  refine WP.call (acc_expr h _ _ _ _ _ hc (by after) _ fun r u1 n1 i1 hr c1 g1 => ?_)
  steps [hr]
  refine WP.last ?_
  simp only [body, argLoopBody]
  steps []
  exact hQ _ _ _ _ trivial (by count) (by grow [g1.1, g1.2])

theorem acc_args_cons {w v : List Tok} {sh shv : List Shape} {t0 : Text} {k1 k2 : Kind}
    (h : Acc (.expr 1) w sh) (h' : Acc .args v shv) :
    Acc .args (w ++ ⟨.COMMA, t0, k1, k2⟩ :: v) (sh ++ .leaf .COMMA :: shv) := by
  rintro rest u n i o hc hf Q hQ
  have e1 := h.1.ne (k := .R_PAREN) (by decide) (⟨.COMMA, t0, k1, k2⟩ :: (v ++ rest))
  have e2 := h.1.ne (k := .EOF) (by decide) (⟨.COMMA, t0, k1, k2⟩ :: (v ++ rest))
  simp only [body, argLoopBody, expr]
  steps [e1, e2]
  refine WP.call (acc_expr h _ _ _ _ _ (by clean hc) (by after) _ fun r u1 n1 i1 hr c1 g1 => ?_)
  steps [hr]
  refine WP.last (h' _ _ _ _ _ (by clean hc) hf _ fun r u2 n2 i2 hr c2 g2 => ?_)
  exact hQ _ _ _ _ trivial (by count) (by grow [g1.1, g1.2, g2.1, g2.2])

theorem acc_argList {w : List Tok} {sh : List Shape} {t t' : Text} {l1 l2 m1 m2 : Kind}
    (h : Acc .args w sh) :
    Acc .argList (⟨.L_PAREN, t, l1, l2⟩ :: (w ++ [⟨.R_PAREN, t', m1, m2⟩]))
      [.node .ARG_LIST (.leaf .L_PAREN :: (sh ++ [.leaf .R_PAREN]))] := by
  refine ⟨⟨_, _, rfl, List.mem_cons_self⟩, ?_⟩
  rintro rest u n i o hc hf Q hQ
  simp only [argList]
  steps []
  refine WP.call (h _ _ _ _ _ (by clean hc) (by after) _ fun r u1 n1 i1 _ c1 g1 => ?_)
  steps []
  exact hQ _ _ _ _ trivial (by count) (by grow [g1.1, g1.2])

/-! ### Atoms -/

theorem literal_first_atsign : LITERAL_FIRST.contains .ATSIGN = true := rfl
theorem literal_first_ident : LITERAL_FIRST.contains .IDENT = false := rfl
theorem literal_first_paren : LITERAL_FIRST.contains .L_PAREN = false := rfl
theorem literal_first_brace : LITERAL_FIRST.contains .L_BRACE = false := rfl

theorem acc_atom_literal {k : Kind} {t : Text} {l1 l2 : Kind}
    (hk : k = .TRUE_KW ∨ k = .FALSE_KW ∨ k = .INTEGER_NUMBER ∨ k = .HEX_STRING ∨ k = .BYTE_STRING) :
    Acc .atom [⟨k, t, l1, l2⟩] [.node .LITERAL [.leaf k]] := by
  refine ⟨⟨_, _, rfl, ?_⟩, ?_⟩
  · rcases hk with rfl | rfl | rfl | rfl | rfl <;> simp [atomHeads]
  intro rest u n i o hc hf Q hQ
  have e1 : LITERAL_FIRST.contains k = true := by rcases hk with rfl | rfl | rfl | rfl | rfl <;> rfl
  have e2 : k ≠ .ATSIGN := by rcases hk with rfl | rfl | rfl | rfl | rfl <;> decide
  have e3 : k ≠ .EOF := by rcases hk with rfl | rfl | rfl | rfl | rfl <;> decide
  have hz : (if k = .IDENT then 1 else 0) = 0 := by rcases hk with rfl | rfl | rfl | rfl | rfl <;> rfl
  have e4 : k ≠ .WHITESPACE ∧ k ≠ .COMMENT := by rcases hk with rfl | rfl | rfl | rfl | rfl <;> decide
  simp only [atomExpr, literal]
  steps [e1, e2, e3]
  exact hQ _ _ _ _ _ _ (by count) (by grow [e4.1, e4.2])

theorem acc_atom_address {w : List Tok} {sh : List Shape} (h : Acc .addressLit w sh) :
    Acc .atom w [.node .LITERAL sh] := by
  obtain ⟨t, l1, l2, v, k, rfl, h, rfl⟩ := h
  refine ⟨⟨_, _, rfl, by simp [atomHeads]⟩, ?_⟩
  intro rest u n i o hc hf Q hQ
  rcases h with ⟨t', m1, m2, rfl, rfl⟩ | ⟨t', m1, m2, rfl, rfl⟩ <;>
  · simp only [atomExpr, literal, addressLit]
    steps [literal_first_atsign]
    exact hQ _ _ _ _ _ _ (by count) (by grow [])

theorem acc_atom_path {w : List Tok} {sh : List Shape} (h : Acc .path w sh) :
    Acc .atom w [.node .PATH_EXPR sh] := by
  obtain ⟨⟨⟨k, t, l1, l2⟩, w', rfl, hx⟩, h⟩ := h
  obtain rfl : k = .IDENT := by simpa using hx
  refine ⟨⟨_, _, rfl, by simp [atomHeads]⟩, ?_⟩
  intro rest u n i o hc hf Q hQ
  simp only [atomExpr, literal, pathExpr]
  steps [literal_first_ident]
  refine WP.bind (h _ _ _ _ _ hc trivial _ fun c u1 n1 k pre kids c1 g1 => ?_)
  refine wp_pathLoop hf.1 ?_
  steps [kind_beq_ne hf.2]
  exact hQ _ _ _ _ _ _ (by count) (by
    obtain ⟨rfl, e1, e2⟩ := g1
    grow [e1, e2])

theorem acc_atom_record {w v : List Tok} {sh shv : List Shape} (h : Acc .path w sh)
    (h' : Acc .exprFieldList v shv) :
    Acc .atom (w ++ v) [.node .RECORD_EXPR (sh ++ shv)] := by
  obtain ⟨⟨⟨k, t, l1, l2⟩, w', rfl, hx⟩, h⟩ := h
  obtain rfl : k = .IDENT := by simpa using hx
  obtain ⟨⟨⟨k, t', m1, m2⟩, v, rfl, hk⟩, hv⟩ := h'
  obtain rfl : k = .L_BRACE := by simpa using hk
  refine ⟨⟨_, _, rfl, by simp [atomHeads]⟩, ?_⟩
  intro rest u n i o hc hf Q hQ
  simp only [atomExpr, literal, pathExpr]
  steps [literal_first_ident]
  refine WP.bind (h _ _ _ _ _ (by clean hc) trivial _ fun c u1 n1 k pre kids c1 g1 => ?_)
  refine wp_pathLoop (by after) ?_
  steps []
  refine WP.bind (hv _ _ _ _ _ (by clean hc) trivial _ fun r u2 n2 i2 _ c2 g2 => ?_)
  steps []
  exact hQ _ _ _ _ _ _ (by count) (by
    obtain ⟨rfl, e1, e2⟩ := g1
    grow [e1, e2, g2.1, g2.2])

theorem acc_atom_unit {t t' : Text} {l1 l2 m1 m2 : Kind} :
    Acc .atom [⟨.L_PAREN, t, l1, l2⟩, ⟨.R_PAREN, t', m1, m2⟩]
      [.node .PAREN_EXPR [.leaf .L_PAREN, .leaf .R_PAREN]] := by
  refine ⟨⟨_, _, rfl, by simp [atomHeads]⟩, ?_⟩
  intro rest u n i o hc hf Q hQ
  simp only [atomExpr, literal, parenExpr]
  steps [literal_first_paren]
  refine WP.call ?_
  simp only [body, parenLoopBody]
  steps []
  exact hQ _ _ _ _ _ _ (by count) (by grow [])

theorem acc_atom_paren {w : List Tok} {sh : List Shape} {t t' : Text} {l1 l2 m1 m2 : Kind}
    (h : Acc (.expr 1) w sh) :
    Acc .atom (⟨.L_PAREN, t, l1, l2⟩ :: (w ++ [⟨.R_PAREN, t', m1, m2⟩]))
      [.node .PAREN_EXPR (.leaf .L_PAREN :: (sh ++ [.leaf .R_PAREN]))] := by
  refine ⟨⟨_, _, rfl, by simp [atomHeads]⟩, ?_⟩
  intro rest u n i o hc hf Q hQ
  have e1 := h.1.ne (k := .R_PAREN) (by decide) (⟨.R_PAREN, t', m1, m2⟩ :: rest)
  have e2 := h.1.ne (k := .EOF) (by decide) (⟨.R_PAREN, t', m1, m2⟩ :: rest)
  simp only [atomExpr, literal, parenExpr]
  steps [literal_first_paren]
  refine WP.call ?_
  simp only [body, parenLoopBody, expr]
  steps [e1, e2]
  refine WP.call (acc_expr h _ _ _ _ _ (by clean hc) (by after) _ fun r u1 n1 i1 hr c1 g1 => ?_)
  steps [hr]
  refine WP.last ?_
  simp only [body, parenLoopBody]
  steps []
  exact hQ _ _ _ _ _ _ (by count) (by grow [g1.1, g1.2])

theorem acc_atom_block {w : List Tok} {sh : List Shape} (h : Acc .block w sh) : Acc .atom w sh := by
  obtain ⟨⟨⟨k, t, l1, l2⟩, w', rfl, hx⟩, h⟩ := h
  obtain rfl : k = .L_BRACE := by simpa using hx
  refine ⟨⟨_, _, rfl, by simp [atomHeads]⟩, ?_⟩
  intro rest u n i o hc hf Q hQ
  simp only [atomExpr, literal]
  steps [literal_first_brace]
  refine WP.bind (h _ _ _ _ _ hc trivial _ fun c u1 n1 k pre kids c1 g1 => ?_)
  steps []
  exact hQ _ _ _ _ _ _ c1 g1

/-! ### Record expressions -/

/-- `AfterWhole` behind a field. -/
theorem after_field {w : List Tok} (h : Next .COMMA w ∨ Next .R_BRACE w) : AfterWhole w ∧ kind0 w ≠ .COLON := by
  rcases h with ⟨t, l1, l2, r, rfl⟩ | ⟨t, l1, l2, r, rfl⟩ <;> simp [AfterWhole, AfterUnary, kind0_cons, opTable]

theorem acc_exprField {w v : List Tok} {sh shv : List Shape} {t0 : Text} {k1 k2 : Kind}
    (h : Acc .nameRef w sh) (h' : Acc (.expr 1) v shv) :
    Acc .exprField (w ++ ⟨.COLON, t0, k1, k2⟩ :: v)
      [.node .RECORD_EXPR_FIELD (sh ++ .leaf .COLON :: shv)] := by
  obtain ⟨t, l1, l2, rfl, rfl⟩ := h
  refine ⟨⟨_, _, rfl, List.mem_cons_self⟩, ?_⟩
  rintro rest u n i o hc hf Q hQ
  obtain rfl : l1 = .COLON := hc.1 (.inl rfl)
  simp only [recordExprField, expr]
  steps []
  refine WP.call (acc_expr h' _ _ _ _ _ (by clean hc) (after_field hf).1 _ fun r u1 n1 i1 _ c1 g1 => ?_)
  steps []
  exact hQ _ _ _ _ trivial (by count) (by grow [g1.1, g1.2])

theorem acc_exprField_short {w : List Tok} {sh : List Shape} (h : Acc .pathExpr w sh) :
    Acc .exprField w [.node .RECORD_EXPR_FIELD sh] := by
  obtain ⟨t, l1, l2, rfl, rfl⟩ := h
  refine ⟨⟨_, _, rfl, List.mem_cons_self⟩, ?_⟩
  rintro rest u n i o hc hf Q hQ
  have hl : l1 ≠ .COLON := by
    have := hc.1 (.inl rfl)
    rw [show l1 = kind0 rest from this]
    exact (after_field hf).2
  have hE : Acc (.expr 1) [⟨.IDENT, t, l1, l2⟩] [.node .PATH_EXPR [onePathShape]] := by
    iterate 11 apply acc_expr_up
    exact acc_expr_unary (acc_unary_postfixed (acc_postfixed_atom (acc_atom_path
      (acc_onePath ⟨t, l1, l2, rfl, rfl⟩))))
  simp only [recordExprField, expr]
  steps [hl]
  refine WP.call (acc_expr hE _ _ _ _ _ hc (after_field hf).1 _ fun r u1 n1 i1 _ c1 g1 => ?_)
  steps []
  exact hQ _ _ _ _ trivial (by count) (by grow [g1.1, g1.2])

theorem acc_exprFields_nil : Acc .exprFields [] [] := by
  rintro rest u n i o hc ⟨t, l1, l2, r, rfl⟩ Q hQ
  simp only [body, recordExprLoopBody]
  steps []
  exact hQ _ _ _ _ trivial (by count) (by grow [])

theorem acc_exprFields_one {w : List Tok} {sh : List Shape} (h : Acc .exprField w sh) :
    Acc .exprFields w sh := by
  rintro rest u n i o hc ⟨t, l1, l2, r, rfl⟩ Q hQ
  have e1 := h.1.ne (k := .R_BRACE) (by decide) (⟨.R_BRACE, t, l1, l2⟩ :: r)
  have e2 := h.1.ne (k := .EOF) (by decide) (⟨.R_BRACE, t, l1, l2⟩ :: r)
  simp only [body, recordExprLoopBody]
  steps [e1, e2]
  refine WP.bind (h.2 _ _ _ _ _ hc (.inr ⟨_, _, _, _, rfl⟩) _ fun r u1 n1 i1 hr c1 g1 => ?_)
  steps []
  refine WP.last ?_
  simp only [body, recordExprLoopBody]
  steps []
  exact hQ _ _ _ _ trivial (by count) (by grow [g1.1, g1.2])

theorem acc_exprFields_cons {w v : List Tok} {sh shv : List Shape} {t0 : Text} {k1 k2 : Kind}
    (h : Acc .exprField w sh) (h' : Acc .exprFields v shv) :
    Acc .exprFields (w ++ ⟨.COMMA, t0, k1, k2⟩ :: v) (sh ++ .leaf .COMMA :: shv) := by
  rintro rest u n i o hc hf Q hQ
  have e1 := h.1.ne (k := .R_BRACE) (by decide) (⟨.COMMA, t0, k1, k2⟩ :: (v ++ rest))
  have e2 := h.1.ne (k := .EOF) (by decide) (⟨.COMMA, t0, k1, k2⟩ :: (v ++ rest))
  simp only [body, recordExprLoopBody]
  steps [e1, e2]
  refine WP.bind (h.2 _ _ _ _ _ (by clean hc) (.inl ⟨_, _, _, _, rfl⟩) _ fun r u1 n1 i1 hr c1 g1 => ?_)
  steps []
  refine WP.last (h' _ _ _ _ _ (by clean hc) hf _ fun r u2 n2 i2 hr c2 g2 => ?_)
  exact hQ _ _ _ _ trivial (by count) (by grow [g1.1, g1.2, g2.1, g2.2])

theorem acc_exprFieldList {w : List Tok} {sh : List Shape} {t t' : Text} {l1 l2 m1 m2 : Kind}
    (h : Acc .exprFields w sh) :
    Acc .exprFieldList (⟨.L_BRACE, t, l1, l2⟩ :: (w ++ [⟨.R_BRACE, t', m1, m2⟩]))
      [.node .RECORD_EXPR_FIELD_LIST (.leaf .L_BRACE :: (sh ++ [.leaf .R_BRACE]))] := by
  refine ⟨⟨_, _, rfl, List.mem_cons_self⟩, ?_⟩
  rintro rest u n i o hc hf Q hQ
  simp only [recordExprFieldList]
  steps []
  refine WP.call (h _ _ _ _ _ (by clean hc) (by after) _ fun r u1 n1 i1 _ c1 g1 => ?_)
  steps []
  exact hQ _ _ _ _ trivial (by count) (by grow [g1.1, g1.2])

/-! ### Statements and blocks -/

theorem acc_stmts_nil : Acc .stmts [] [] := by
  rintro rest u n i o hc ⟨t, l1, l2, r, rfl⟩ Q hQ
  simp only [body, blockLoopBody]
  steps []
  exact hQ _ _ _ _ trivial (by count) (by grow [])

theorem acc_stmts_last {w : List Tok} {sh : List Shape} (h : Acc (.expr 1) w sh) :
    Acc .stmts w [.node .EXPR_STMT sh] := by
  rintro rest u n i o hc ⟨t, l1, l2, r, rfl⟩ Q hQ
  have e1 := h.1.ne (k := .R_BRACE) (by decide) (⟨.R_BRACE, t, l1, l2⟩ :: r)
  have e2 := h.1.ne (k := .EOF) (by decide) (⟨.R_BRACE, t, l1, l2⟩ :: r)
  have e3 := h.1.ne (k := .LET_KW) (by decide) (⟨.R_BRACE, t, l1, l2⟩ :: r)
  simp only [body, blockLoopBody]
  steps [e1, e2]
  refine WP.call ?_
  simp only [body, stmtBody, semi, expr]
  steps [e3]
  refine WP.call (acc_expr h _ _ _ _ _ hc (by after) _ fun r u1 n1 i1 hr c1 g1 => ?_)
  steps []
  refine WP.last ?_
  simp only [body, blockLoopBody]
  steps []
  exact hQ _ _ _ _ trivial (by count) (by grow [g1.1, g1.2])

theorem acc_stmts_cons {w v : List Tok} {sh shv : List Shape} (h : Acc .stmt w sh)
    (h' : Acc .stmts v shv) : Acc .stmts (w ++ v) (sh ++ shv) := by
  rintro rest u n i o hc hf Q hQ
  have e1 := h.1.ne (k := .R_BRACE) (by decide) (v ++ rest)
  have e2 := h.1.ne (k := .EOF) (by decide) (v ++ rest)
  simp only [body, blockLoopBody]
  steps [e1, e2]
  refine WP.call (h.2 _ _ _ _ _ (by clean hc) trivial _ fun r u1 n1 i1 hr c1 g1 => ?_)
  refine WP.last (h' _ _ _ _ _ (by clean hc) hf _ fun r u2 n2 i2 hr c2 g2 => ?_)
  exact hQ _ _ _ _ trivial (by count) (by grow [g1.1, g1.2, g2.1, g2.2])

theorem acc_stmt_expr {w : List Tok} {sh : List Shape} {t : Text} {l1 l2 : Kind}
    (h : Acc (.expr 1) w sh) :
    Acc .stmt (w ++ [⟨.SEMICOLON, t, l1, l2⟩]) [.node .EXPR_STMT (sh ++ [.leaf .SEMICOLON])] := by
  refine ⟨(h.1.append _).mono (fun _ h => List.mem_cons_of_mem _ h), ?_⟩
  rintro rest u n i o hc hf Q hQ
  have e3 := h.1.ne (k := .LET_KW) (by decide) (⟨.SEMICOLON, t, l1, l2⟩ :: rest)
  simp only [body, stmtBody, semi, expr]
  steps [e3]
  refine WP.call (acc_expr h _ _ _ _ _ (by clean hc) (by after) _ fun r u1 n1 i1 hr c1 g1 => ?_)
  steps []
  exact hQ _ _ _ _ trivial (by count) (by grow [g1.1, g1.2])

theorem acc_stmt_let {w : List Tok} {sh : List Shape} {t t' : Text} {l1 l2 m1 m2 : Kind}
    (h : Acc .pattern w sh) :
    Acc .stmt (⟨.LET_KW, t, l1, l2⟩ :: (w ++ [⟨.SEMICOLON, t', m1, m2⟩]))
      [.node .LET_STMT (.leaf .LET_KW :: (sh ++ [.leaf .SEMICOLON]))] := by
  refine ⟨⟨_, _, rfl, List.mem_cons_self⟩, ?_⟩
  rintro rest u n i o hc hf Q hQ
  simp only [body, stmtBody, letStmt, semi, expr]
  steps []
  refine WP.call (h.2 _ _ _ _ _ (by clean hc) (by after) _ fun r u1 n1 i1 hr c1 g1 => ?_)
  steps []
  exact hQ _ _ _ _ trivial (by count) (by grow [g1.1, g1.2])

theorem acc_stmt_let_type {w v : List Tok} {sh shv : List Shape} {t t0 t' : Text}
    {l1 l2 k1 k2 m1 m2 : Kind} (h : Acc .pattern w sh) (h' : Acc .type v shv) :
    Acc .stmt (⟨.LET_KW, t, l1, l2⟩ :: (w ++ ⟨.COLON, t0, k1, k2⟩ :: (v ++ [⟨.SEMICOLON, t', m1, m2⟩])))
      [.node .LET_STMT (.leaf .LET_KW :: (sh ++ .leaf .COLON :: (shv ++ [.leaf .SEMICOLON])))] := by
  refine ⟨⟨_, _, rfl, List.mem_cons_self⟩, ?_⟩
  rintro rest u n i o hc hf Q hQ
  simp only [body, stmtBody, letStmt, semi, expr, ascription]
  steps []
  refine WP.call (h.2 _ _ _ _ _ (by clean hc) (by after) _ fun r u1 n1 i1 hr c1 g1 => ?_)
  steps []
  refine WP.call (h'.2 _ _ _ _ _ (by clean hc) (by after) _ fun r u2 n2 i2 hr c2 g2 => ?_)
  steps []
  exact hQ _ _ _ _ trivial (by count) (by grow [g1.1, g1.2, g2.1, g2.2])

theorem acc_stmt_let_init {w v : List Tok} {sh shv : List Shape} {t t0 t' : Text}
    {l1 l2 k1 k2 m1 m2 : Kind} (h : Acc .pattern w sh) (h' : Acc (.expr 1) v shv) :
    Acc .stmt (⟨.LET_KW, t, l1, l2⟩ :: (w ++ ⟨.EQ, t0, k1, k2⟩ :: (v ++ [⟨.SEMICOLON, t', m1, m2⟩])))
      [.node .LET_STMT (.leaf .LET_KW :: (sh ++ .leaf .EQ :: (shv ++ [.leaf .SEMICOLON])))] := by
  refine ⟨⟨_, _, rfl, List.mem_cons_self⟩, ?_⟩
  rintro rest u n i o hc hf Q hQ
  simp only [body, stmtBody, letStmt, semi, expr, ascription]
  steps []
  refine WP.call (h.2 _ _ _ _ _ (by clean hc) (by after) _ fun r u1 n1 i1 hr c1 g1 => ?_)
  steps []
  refine WP.call (acc_expr h' _ _ _ _ _ (by clean hc) (by after) _ fun r u2 n2 i2 hr c2 g2 => ?_)
  steps []
  exact hQ _ _ _ _ trivial (by count) (by grow [g1.1, g1.2, g2.1, g2.2])

theorem acc_stmt_let_both {w x v : List Tok} {sh shx shv : List Shape} {t t1 t0 t' : Text}
    {l1 l2 j1 j2 k1 k2 m1 m2 : Kind} (h : Acc .pattern w sh) (hx : Acc .type x shx)
    (h' : Acc (.expr 1) v shv) :
    Acc .stmt (⟨.LET_KW, t, l1, l2⟩ :: (w ++ ⟨.COLON, t1, j1, j2⟩ ::
      (x ++ ⟨.EQ, t0, k1, k2⟩ :: (v ++ [⟨.SEMICOLON, t', m1, m2⟩]))))
      [.node .LET_STMT (.leaf .LET_KW :: (sh ++ .leaf .COLON :: (shx ++ .leaf .EQ :: (shv ++ [.leaf .SEMICOLON]))))] := by
  refine ⟨⟨_, _, rfl, List.mem_cons_self⟩, ?_⟩
  rintro rest u n i o hc hf Q hQ
  simp only [body, stmtBody, letStmt, semi, expr, ascription]
  steps []
  refine WP.call (h.2 _ _ _ _ _ (by clean hc) (by after) _ fun r u1 n1 i1 hr c1 g1 => ?_)
  steps []
  refine WP.call (hx.2 _ _ _ _ _ (by clean hc) (by after) _ fun r u3 n3 i3 hr c3 g3 => ?_)
  steps []
  refine WP.call (acc_expr h' _ _ _ _ _ (by clean hc) (by after) _ fun r u2 n2 i2 hr c2 g2 => ?_)
  steps []
  exact hQ _ _ _ _ trivial (by count) (by grow [g1.1, g1.2, g2.1, g2.2, g3.1, g3.2])

theorem acc_block {w : List Tok} {sh : List Shape} {t t' : Text} {l1 l2 m1 m2 : Kind}
    (h : Acc .stmts w sh) :
    Acc .block (⟨.L_BRACE, t, l1, l2⟩ :: (w ++ [⟨.R_BRACE, t', m1, m2⟩]))
      [.node .BLOCK_EXPR (.leaf .L_BRACE :: (sh ++ [.leaf .R_BRACE]))] := by
  refine ⟨⟨_, _, rfl, List.mem_cons_self⟩, ?_⟩
  rintro rest u n i o hc hf Q hQ
  simp only [blockExprUnchecked]
  steps []
  refine WP.call (h _ _ _ _ _ (by clean hc) (by after) _ fun r u1 n1 i1 _ c1 g1 => ?_)
  steps []
  exact hQ _ _ _ _ _ _ (by count) (by grow [g1.1, g1.2])

end Verif.Parser
