import Verif.Parser.Operators

set_option autoImplicit false

/-! Non-trivial texts that meet the hypotheses of `parse_valid` and `parse_operators`. -/

namespace Verif.Parser

open Language Lexer

/-- Whether a text consists of given tokens. -/
def lexesCheck : Text → List (Kind × Text) → Bool
  | t, [] => t == []
  | t, (k, u) :: ts => u != [] && t.take u.length == u && findToken t == some (k, byteLen u) &&
      lexesCheck (t.drop u.length) ts

theorem lexes_of_check {t : Text} {ts : List (Kind × Text)} (h : lexesCheck t ts = true) : Lexes t ts := by
  induction ts generalizing t with
  | nil =>
    simp only [lexesCheck, beq_iff_eq] at h
    subst h
    exact .nil _
  | cons x ts ih =>
    obtain ⟨k, u⟩ := x
    simp only [lexesCheck, Bool.and_eq_true, bne_iff_ne, ne_eq, beq_iff_eq] at h
    obtain ⟨⟨⟨h1, h2⟩, h3⟩, h4⟩ := h
    have e : t = u ++ t.drop u.length := by
      conv => lhs; rw [← List.take_append_drop u.length t]
      rw [h2]
    rw [e] at h3 ⊢
    exact .cons h1 h3 (ih h4)

/-- Whether tokens are `Spaced`. -/
def spacedCheck : List (Kind × Text) → Bool
  | [] => true
  | (k, _) :: ts =>
    (!(k == .IDENT || k == .INTEGER_NUMBER) ||
      (ts.dropWhile (·.1 == .WHITESPACE)).head?.map Prod.fst != some .COMMENT) &&
    (k != .COLON_COLON || match ts with | _ :: (k', _) :: _ => k' != .STAR && k' != .L_BRACE | _ => true) &&
    spacedCheck ts

theorem spaced_of_check {ts : List (Kind × Text)} (h : spacedCheck ts = true) : Spaced ts := by
  induction ts with
  | nil =>
    refine ⟨?_, ?_⟩
    · intro before k t after e; cases before <;> cases e
    · intro before t x k u after e; cases before <;> cases e
  | cons x ts ih =>
    obtain ⟨k0, t0⟩ := x
    simp only [spacedCheck, Bool.and_eq_true] at h
    obtain ⟨⟨h1, h2⟩, h3⟩ := h
    have ih := ih h3
    refine ⟨?_, ?_⟩
    · intro before k t after e hk
      cases before with
      | nil =>
        injection e with e1 e2
        injection e1 with e1 e3
        subst e1 e2
        have : (k0 == .IDENT || k0 == .INTEGER_NUMBER) = true := by simpa using hk
        rw [this] at h1
        simpa using h1
      | cons y before => cases e; exact ih.comment before k t after rfl hk
    · intro before t x k u after e
      cases before with
      | nil => cases e; simpa using h2
      | cons y before => cases e; exact ih.path before t x k u after rfl

/-- A text with a chain of operators. -/
def operatorSample : Text := "// c\nscript { fun main(x: u8): u8 { let y = 1 + x * a.b + 2; y } }".toList

private def ws : Kind × Text := (.WHITESPACE, " ".toList)
private def tk' (k : Kind) (s : String) : Kind × Text := (k, s.toList)

def operatorTokens : List (Kind × Text) := [tk' .COMMENT "// c\n", tk' .SCRIPT_KW "script", ws, tk' .L_BRACE "{", ws,
  tk' .FUN_KW "fun", ws, tk' .IDENT "main", tk' .L_PAREN "(", tk' .IDENT "x", tk' .COLON ":", ws,
  tk' .IDENT "u8", tk' .R_PAREN ")", tk' .COLON ":", ws, tk' .IDENT "u8", ws, tk' .L_BRACE "{", ws,
  tk' .LET_KW "let", ws, tk' .IDENT "y", ws, tk' .EQ "=", ws,
  tk' .INTEGER_NUMBER "1", ws, tk' .PLUS "+", ws, tk' .IDENT "x", ws, tk' .STAR "*", ws, tk' .IDENT "a", tk' .DOT ".", tk' .IDENT "b", ws,
  tk' .PLUS "+", ws, tk' .INTEGER_NUMBER "2", tk' .SEMICOLON ";", ws, tk' .IDENT "y", ws, tk' .R_BRACE "}", ws, tk' .R_BRACE "}"]

theorem operatorSample_lexes : Lexes operatorSample operatorTokens := lexes_of_check (by decide +kernel)

theorem operatorSample_spaced : Spaced operatorTokens := spaced_of_check (by decide +kernel)

/-- One symbol at a time. -/
theorem Derives.one {x : NT} {k : Option Kind} {rhs syms : List Sym} {us ts : List (Kind × Text)}
    {inner shapes : List Shape} (hr : Rule x k rhs) (h : Derives rhs us inner)
    (h' : Derives syms ts shapes) : Derives (.nt x :: syms) (us ++ ts) (wrap k inner ++ shapes) :=
  .nt hr h h'

theorem derives_path (t : Text) : Derives [.nt .path] [(.IDENT, t)]
    [.node .PATH [.node .PATH_SEGMENT [.node .NAME_REF [.leaf .IDENT]]]] :=
  .nt .path_one (.nt .one_path (.nt .segment (.nt .name_ref (.tok .nil) .nil) .nil) .nil) .nil

theorem derives_name (t : Text) : Derives [.nt .name] [(.IDENT, t)] [.node .NAME [.leaf .IDENT]] :=
  .nt .name (.tok .nil) .nil

theorem derives_type (t : Text) : Derives [.nt .type] [(.IDENT, t)]
    [.node .PATH_TYPE [.node .PATH [.node .PATH_SEGMENT [.node .NAME_REF [.leaf .IDENT]]]]] :=
  .nt .type_path (derives_path t) .nil

theorem derives_operand_ident (t : Text) : Derives [.nt .unary] [(.IDENT, t)]
    [.node .PATH_EXPR [.node .PATH [.node .PATH_SEGMENT [.node .NAME_REF [.leaf .IDENT]]]]] :=
  .nt .unary_postfixed (.nt .postfixed_atom (.nt .atom_path (derives_path t) .nil) .nil) .nil

theorem derives_operand_int (t : Text) : Derives [.nt .unary] [(.INTEGER_NUMBER, t)]
    [.node .LITERAL [.leaf .INTEGER_NUMBER]] :=
  .nt .unary_postfixed (.nt .postfixed_atom (.nt .atom_integer (.tok .nil) .nil) .nil) .nil

theorem derives_operand_dot (t t' d : Text) : Derives [.nt .unary] [(.IDENT, t), (.DOT, d), (.IDENT, t')]
    [.node .DOT_EXPR [.node .PATH_EXPR [.node .PATH [.node .PATH_SEGMENT [.node .NAME_REF [.leaf .IDENT]]]],
      .leaf .DOT, .node .NAME_REF [.leaf .IDENT]]] :=
  .nt .unary_postfixed (.nt .postfixed_dot
    (.nt (us := [(.IDENT, t)]) .postfixed_atom (.nt .atom_path (derives_path t) .nil) (.tok (.nt .name_ref (.tok .nil) .nil)))
    .nil) .nil

theorem derives_expr_of_unary {ts : List (Kind × Text)} {sh : List Shape} (h : Derives [.nt .unary] ts sh) :
    Derives [.nt (.expr 1)] ts sh :=
  Bin.derives (b := .operand ts sh) h trivial (by omega)

/-- The tree of the sample around that of the expression. -/
def operatorAround (tree : List Shape) : List Shape :=
  let ty := Shape.node .PATH_TYPE [.node .PATH [.node .PATH_SEGMENT [.node .NAME_REF [.leaf .IDENT]]]]
  let name := Shape.node .NAME [.leaf .IDENT]
  [.node .SCRIPT_DEF [.leaf .SCRIPT_KW, .node .ITEM_LIST [.leaf .L_BRACE,
    .node .FUNCTION_DEF [.leaf .FUN_KW, name,
      .node .PARAM_LIST [.leaf .L_PAREN, .node .PARAM [name, .leaf .COLON, ty], .leaf .R_PAREN],
      .node .RET_TYPE [.leaf .COLON, ty],
      .node .BLOCK_EXPR [.leaf .L_BRACE,
        .node .LET_STMT (.leaf .LET_KW :: .node .IDENT_PAT [name] :: .leaf .EQ :: (tree ++ [.leaf .SEMICOLON])),
        .node .EXPR_STMT [.node .PATH_EXPR [.node .PATH [.node .PATH_SEGMENT [.node .NAME_REF [.leaf .IDENT]]]]],
        .leaf .R_BRACE]],
    .leaf .R_BRACE]]]

/-- The place of the expression in the sample. -/
theorem operatorSample_place : Place
    [tk' .SCRIPT_KW "script", tk' .L_BRACE "{", tk' .FUN_KW "fun", tk' .IDENT "main", tk' .L_PAREN "(",
      tk' .IDENT "x", tk' .COLON ":", tk' .IDENT "u8", tk' .R_PAREN ")", tk' .COLON ":", tk' .IDENT "u8",
      tk' .L_BRACE "{", tk' .LET_KW "let", tk' .IDENT "y", tk' .EQ "="]
    [tk' .SEMICOLON ";", tk' .IDENT "y", tk' .R_BRACE "}", tk' .R_BRACE "}"]
    operatorAround := by
  intro ts tree h
  have hlet := Derives.nt (syms := [.nt .stmts]) .stmt_let_init
    (.tok (t := "let".toList) (.nt .pattern_ident (.nt .ident_pat (derives_name "y".toList) .nil)
      (.tok (t := "=".toList) (Bin.derives_snoc h (.tok (t := ";".toList) .nil)))))
    (.nt .stmts_last (derives_expr_of_unary (derives_operand_ident "y".toList)) .nil)
  have hblock := Derives.nt .block (.tok (t := "{".toList) (.nt .stmts_cons hlet (.tok (t := "}".toList) .nil))) .nil
  have hparam := Derives.nt .param (Bin.derives_snoc (derives_name "x".toList)
    (.tok (t := ":".toList) (derives_type "u8".toList))) .nil
  have hparams := Derives.nt .param_list (.tok (t := "(".toList)
    (.nt .params_one hparam (.tok (t := ")".toList) .nil))) .nil
  have hret := Derives.nt .ret (.tok (t := ":".toList) (derives_type "u8".toList)) .nil
  have hfun := Derives.nt .fun_ret (.tok (t := "fun".toList) (Bin.derives_snoc (derives_name "main".toList)
    (Bin.derives_snoc hparams (Bin.derives_snoc hret hblock)))) (.nt .items_nil .nil .nil)
  have hfile := Derives.nt .file_script (.nt .script (.tok (t := "script".toList) (.nt .item_body
    (.tok (t := "{".toList) (.nt .items_fun hfun (.tok (t := "}".toList) .nil))) .nil)) (.nt .file_nil .nil .nil)) .nil
  simpa [wrap, tk', operatorAround] using hfile

/-- The expression of the sample, `1 + x * a.b + 2`, grouped as `(1 + (x * a.b)) + 2`. -/
def operatorBin : Bin :=
  let x := Shape.node .PATH_EXPR [.node .PATH [.node .PATH_SEGMENT [.node .NAME_REF [.leaf .IDENT]]]]
  .node .PLUS "+".toList (.node .PLUS "+".toList
    (.operand [tk' .INTEGER_NUMBER "1"] [.node .LITERAL [.leaf .INTEGER_NUMBER]])
    (.node .STAR "*".toList (.operand [tk' .IDENT "x"] [x])
      (.operand [tk' .IDENT "a", tk' .DOT ".", tk' .IDENT "b"]
        [.node .DOT_EXPR [x, .leaf .DOT, .node .NAME_REF [.leaf .IDENT]]])))
    (.operand [tk' .INTEGER_NUMBER "2"] [.node .LITERAL [.leaf .INTEGER_NUMBER]])

theorem operatorBin_grouped : operatorBin.Grouped :=
  ⟨10, rfl, ⟨10, rfl, by omega⟩, trivial, ⟨10, rfl, trivial, ⟨11, rfl, by omega⟩, derives_operand_int _,
    ⟨11, rfl, trivial, trivial, derives_operand_ident _, derives_operand_dot _ _ _⟩⟩, derives_operand_int _⟩

/-- Witness of `parse_operators_short`. -/
example : ∃ green, parse operatorSample = .ok .SOURCE_FILE green [] ∧
    green.shapes = operatorAround operatorBin.shapes :=
  parse_operators_short operatorSample_lexes operatorSample_place (by decide +kernel) operatorSample_spaced
    (by decide +kernel) operatorBin_grouped

/-- The operators of the sample, with the operands behind them. -/
def operatorLinks : List Link :=
  let x := Shape.node .PATH_EXPR [.node .PATH [.node .PATH_SEGMENT [.node .NAME_REF [.leaf .IDENT]]]]
  [⟨.PLUS, "+".toList, [tk' .IDENT "x"], [x]⟩,
    ⟨.STAR, "*".toList, [tk' .IDENT "a", tk' .DOT ".", tk' .IDENT "b"],
      [.node .DOT_EXPR [x, .leaf .DOT, .node .NAME_REF [.leaf .IDENT]]]⟩,
    ⟨.PLUS, "+".toList, [tk' .INTEGER_NUMBER "2"], [.node .LITERAL [.leaf .INTEGER_NUMBER]]⟩]

/-- Witness of `parse_operators` and `chain_grouped`. -/
example : (∀ x ∈ operatorLinks, (precedence x.op).isSome = true ∧ Derives [.nt .unary] x.operand x.tree) ∧
    operatorBin.tokens = chainTokens [tk' .INTEGER_NUMBER "1"] operatorLinks := by
  refine ⟨?_, rfl⟩
  simp only [operatorLinks, List.mem_cons, List.not_mem_nil, or_false, forall_eq_or_imp, forall_eq]
  exact ⟨⟨rfl, derives_operand_ident "x".toList⟩, ⟨rfl, derives_operand_dot "a".toList "b".toList ".".toList⟩,
    rfl, derives_operand_int "2".toList⟩

/-- Witness of `parse_valid`, `parse_valid_partial` and `derives_unique`. -/
example : Derives [.nt .file] (significant operatorTokens) (operatorAround operatorBin.shapes) ∧
    Spaced operatorTokens ∧ (significant operatorTokens).length = 28 :=
  ⟨operatorSample_place operatorBin.tokens operatorBin.shapes
    (Bin.derives operatorBin_grouped ⟨10, rfl, by omega⟩ (by omega)),
    operatorSample_spaced, by decide +kernel⟩

/-- A file with `n` empty modules. -/
def modules : Nat → Text
  | 0 => []
  | n + 1 => "module M{}".toList ++ modules n

def moduleTokens : Nat → List (Kind × Text)
  | 0 => []
  | n + 1 => tk' .MODULE_KW "module" :: ws :: tk' .IDENT "M" :: tk' .L_BRACE "{" :: tk' .R_BRACE "}" ::
      moduleTokens n

theorem modules_lexes (n : Nat) : Lexes (modules n) (moduleTokens n) := by
  induction n with
  | zero => exact .nil _
  | succ n ih =>
    refine .cons (u := "module".toList) (r := " M{}".toList ++ modules n) (by decide) (by rfl) ?_
    refine .cons (u := " ".toList) (r := "M{}".toList ++ modules n) (by decide) (by rfl) ?_
    refine .cons (u := "M".toList) (r := "{}".toList ++ modules n) (by decide) (by rfl) ?_
    refine .cons (u := "{".toList) (r := "}".toList ++ modules n) (by decide) (by rfl) ?_
    exact .cons (u := "}".toList) (r := modules n) (by decide) (by rfl) ih

theorem modules_derive (n : Nat) : ∃ shapes, Derives [.nt .file] (significant (moduleTokens n)) shapes := by
  induction n with
  | zero => exact ⟨_, .nt .file_nil .nil .nil⟩
  | succ n ih =>
    obtain ⟨shapes, h⟩ := ih
    have hm := Derives.nt .module_plain (.tok (t := "module".toList) (Bin.derives_snoc (derives_name "M".toList)
      (.nt .item_body (.tok (t := "{".toList) (.nt .items_nil .nil (.tok (t := "}".toList) .nil))) .nil))) h
    have := Derives.nt .file_module hm .nil
    rw [List.append_nil] at this
    exact ⟨_, this⟩

theorem modules_spaced (n : Nat) : Spaced (moduleTokens n) := by
  refine spaced_of_check ?_
  induction n with
  | zero => rfl
  | succ n ih =>
    simp only [moduleTokens, spacedCheck, tk', ws, ih]
    rfl

theorem modules_idents (n : Nat) : (significant (moduleTokens n)).countP (·.1 == .IDENT) = n := by
  induction n with
  | zero => rfl
  | succ n ih =>
    show List.countP _ (tk' .MODULE_KW "module" :: tk' .IDENT "M" :: tk' .L_BRACE "{" :: tk' .R_BRACE "}" ::
      significant (moduleTokens n)) = _
    simp only [List.countP_cons, ih, tk']
    rfl

/-- Witness of `parse_long_panics`: a file with more than 10,001 empty modules. -/
theorem parse_modules_panics (n : Nat) (h : 10001 < n) : parse (modules n) = .panic .stuck := by
  obtain ⟨shapes, hd⟩ := modules_derive n
  exact parse_long_panics (modules_lexes n) hd (modules_spaced n) (by rw [modules_idents]; exact h)

end Verif.Parser
