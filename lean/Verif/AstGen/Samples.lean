import Verif.AstGen.Props

set_option autoImplicit false

/-!
The generator on the grammar of the repository, the places where it disagrees with C49 and C64, and
witnesses for the hypotheses.
-/

namespace Verif.AstGen

private def n (s : String) : Rule := .node s.toList
private def t (s : String) : Rule := .token s.toList
private def l (s : String) (r : Rule) : Rule := .labeled s.toList r

/-- crates/generate_ast/src/move.ungram:20-57.  A sequence binds stronger than `|`, so that of `BinExpr`
splits into five alternatives.  `Grammar::iter` yields the names in the order of their first mention. -/
def moveGrammar : Grammar :=
  [("SourceFile".toList, .rep (n "ScriptDef")),
   ("ScriptDef".toList, .seq [t "{", .rep (n "FunctionDef"), t "}"]),
   ("FunctionDef".toList, .seq [t "fun", t "ident", t "(", t ")", t "{", .rep (n "ExprStmt"), t "}"]),
   ("ExprStmt".toList, .seq [n "Expr", t ";"]),
   ("Expr".toList, .alt [n "BinExpr", n "Literal"]),
   ("BinExpr".toList, .alt [.seq [l "lhs" (n "Expr"), t "+"], t "-", t "*", t "/",
      .seq [t "%", l "rhs" (n "Expr")]]),
   ("Literal".toList, .alt [t "integer_number", t "hex_string", t "byte_string", t "true", t "false"])]

/-- Name, accessors with their types, of a class. -/
def describe (c : Node) : String × List (String × String) :=
  (String.ofList c.name, c.fields.map fun f => (String.ofList f.methodName, String.ofList f.ty))

/-- Conformance: the classes, accessors and types of crates/syntax/src/ast/nodes.rs:5-67. -/
theorem move_classes : (lower moveGrammar).map (fun a => (a.nodes.map describe,
      a.enums.map fun e => (String.ofList e.name, e.variants.map String.ofList))) =
    some ([("SourceFile", [("script_defs", "ScriptDef")]),
      ("ScriptDef", [("l_brace_token", "SyntaxToken"), ("function_defs", "FunctionDef"), ("r_brace_token", "SyntaxToken")]),
      ("FunctionDef", [("fun_token", "SyntaxToken"), ("ident_token", "SyntaxToken"), ("l_paren_token", "SyntaxToken"),
        ("r_paren_token", "SyntaxToken"), ("l_brace_token", "SyntaxToken"), ("expr_stmts", "ExprStmt"),
        ("r_brace_token", "SyntaxToken")]),
      ("ExprStmt", [("expr", "Expr"), ("semicolon_token", "SyntaxToken")]),
      ("BinExpr", [("lhs", "Expr"), ("plus_token", "SyntaxToken"), ("minus_token", "SyntaxToken"),
        ("star_token", "SyntaxToken"), ("slash_token", "SyntaxToken"), ("mod_token", "SyntaxToken"), ("rhs", "Expr")]),
      ("Literal", [("true_token", "SyntaxToken"), ("false_token", "SyntaxToken")])],
      [("Expr", ["BinExpr", "Literal"])]) := by decide +kernel

/-! ### Where the generator disagrees -/

/-- `Foo = Expr A B` with `Expr = A | B`. -/
def mixedGrammar : Grammar :=
  [("Foo".toList, .seq [n "Expr", n "A", n "B"]), ("Expr".toList, .alt [n "A", n "B"]),
   ("A".toList, t "a"), ("B".toList, t "b")]

/-- C49 does not hold for all grammars: the class `Foo` gets the accessor `expr` twice. -/
theorem unique_fields_fails : (lower mixedGrammar).map (fun a => a.nodes.map describe) =
    some [("Foo", [("expr", "Expr"), ("expr", "Expr")]), ("A", [("a_token", "SyntaxToken")]),
      ("B", [("b_token", "SyntaxToken")])] := by decide +kernel

theorem not_unique_fields : ¬ ∀ g ast, lower g = some ast → (g.map Prod.fst).Nodup →
    ∀ n, n ∈ ast.nodes → n.fields.Nodup := by
  intro h
  have h1 : ∃ a, lower mixedGrammar = some a ∧ ¬ ∀ n, n ∈ a.nodes → n.fields.Nodup := by
    cases ha : lower mixedGrammar with
    | none =>
      have hf := unique_fields_fails
      rw [ha] at hf
      cases hf
    | some a =>
      refine ⟨a, rfl, ?_⟩
      have hd : (lower mixedGrammar).all (fun a => a.nodes.any fun n => decide (¬ n.fields.Nodup)) = true := by
        decide +kernel
      rw [ha] at hd
      simp only [Option.all_some, List.any_eq_true, decide_eq_true_eq] at hd
      obtain ⟨x, hx, hy⟩ := hd
      intro hall
      exact hy (hall x hx)
  obtain ⟨a, ha, hx⟩ := h1
  exact hx (h _ _ ha (by decide +kernel))

/-- Different fields can have the same accessor name: `Foo = x:A x:B`. -/
theorem unique_names_fails :
    (lower [("Foo".toList, .seq [l "x" (n "A"), l "x" (n "B")]), ("A".toList, t "a"), ("B".toList, t "b")]).map
      (fun a => (a.nodes.map describe).take 1) = some [("Foo", [("x", "A"), ("x", "B")])] := by decide +kernel

/-- C64 does not hold for all grammars: `Foo = A* B*` beside `Expr = A | B` gets the single accessor
`expr`, which yields at most one child. -/
theorem merge_loses_repetition :
    (lower [("Foo".toList, .seq [.rep (n "A"), .rep (n "B")]), ("Expr".toList, .alt [n "A", n "B"]),
        ("A".toList, t "a"), ("B".toList, t "b")]).map (fun a => (a.nodes.take 1).map Node.fields) =
      some [[.node "expr".toList "Expr".toList .optional]] := by decide +kernel

/-- C64: two labelled children of alternatives of a choice are merged as well, `lhs:A rhs:B` becomes `expr`. -/
theorem merge_loses_label :
    (lower [("Foo".toList, .seq [l "lhs" (n "A"), l "rhs" (n "B")]), ("Expr".toList, .alt [n "A", n "B"]),
        ("A".toList, t "a"), ("B".toList, t "b")]).map (fun a => (a.nodes.map describe).take 1) =
      some [("Foo", [("expr", "Expr")])] := by decide +kernel

/-- C64: only numbers are compared: two operands of the same class, `lhs:A rhs:A`, are merged into a choice of
two classes although the other one does not occur. -/
theorem merge_without_alternative :
    (lower [("Foo".toList, .seq [l "lhs" (n "A"), l "rhs" (n "A")]), ("Expr".toList, .alt [n "A", n "B"]),
        ("A".toList, t "a"), ("B".toList, t "b")]).map (fun a => (a.nodes.map describe).take 1) =
      some [("Foo", [("expr", "Expr")])] := by decide +kernel

/-- C64: a class with a `name` loses its accessor to the trait `NameOwner`.  `generate_nodes` does not
implement the traits of classes (gen_nodes.rs:11-14 and 47 are comments), so that the generated class has no
accessor for its name at all. -/
theorem trait_loses_accessor :
    (lower [("Foo".toList, n "Name"), ("Name".toList, t "ident")]).map (fun a => a.nodes.take 1) =
      some [⟨"Foo".toList, ["NameOwner".toList], []⟩] := by decide +kernel

/-- A choice with a choice among its alternatives makes the generator panic, unless it is called `Stmt`. -/
theorem nested_choice_panics :
    lower [("Item".toList, .alt [n "Expr", n "C"]), ("Expr".toList, .alt [n "A", n "B"]), ("A".toList, t "a"),
      ("B".toList, t "b"), ("C".toList, t "c")] = none ∧
    lower [("Stmt".toList, .alt [n "Expr", n "C"]), ("Expr".toList, .alt [n "A", n "B"]), ("A".toList, t "a"),
      ("B".toList, t "b"), ("C".toList, t "c")] ≠ none := by decide +kernel

/-! ### Witnesses -/

theorem move_only_choice {p : Text × Rule} (hp : p ∈ moveGrammar) (hc : IsChoice p.2) :
    p = ("Expr".toList, .alt [n "BinExpr", n "Literal"]) := by
  have h : ∀ r : Rule, IsChoice r → ∃ vs, lowerEnum r = some vs := by
    intro r hr
    cases h : lowerEnum r with
    | none => exact absurd hr (lowerEnum_none h)
    | some vs => exact ⟨vs, rfl⟩
  obtain ⟨vs, hvs⟩ := h _ hc
  simp only [moveGrammar, List.mem_cons, List.not_mem_nil, or_false] at hp
  rcases hp with rfl | rfl | rfl | rfl | rfl | rfl | rfl
  all_goals first | rfl | (exfalso; revert hvs; simp [lowerEnum, lowerEnumLoop, t])

theorem move_accepts {v c : Text} (hv : v = "BinExpr".toList ∨ v = "Literal".toList)
    (h : Accepts moveGrammar v c) : c = v := by
  cases h with
  | refl => rfl
  | step _ w _ r hm hc _ _ =>
    have := move_only_choice hm hc
    simp only [Prod.mk.injEq] at this
    rw [this.1] at hv
    exact absurd hv (by decide)

/-- The classes of the repository's grammar do not use `BinExpr` and `Literal` directly. -/
theorem move_unmixed : ∀ p, p ∈ moveGrammar → ¬ IsChoice p.2 → Unmixed moveGrammar p.2 := by
  intro p hp hnc t' r' hm hc c c' v _ _ hv hc' ha
  have := move_only_choice hm hc
  simp only [Prod.mk.injEq] at this
  rw [this.2] at hv
  obtain ⟨rs, hrs, hv⟩ := hv
  cases hrs
  have hv' : v = "BinExpr".toList ∨ v = "Literal".toList := by
    simpa [n] using hv
  have hty := move_accepts hv' ha
  have hlow : ∀ q, q ∈ moveGrammar → ((lowerRule [] none q.2).all fun fs =>
      fs.all fun f => decide (f.ty ≠ "BinExpr".toList ∧ f.ty ≠ "Literal".toList)) = true ∨
        (lowerEnum q.2).isSome = true := by
    decide +kernel
  rcases hlow p hp with h | h
  · cases hx : lowerRule [] none p.2 with
    | none =>
      have hd : ∀ q, q ∈ moveGrammar → (lowerRule [] none q.2).isSome = true := by decide +kernel
      have := hd p hp
      rw [hx] at this
      cases this
    | some fs =>
      rw [hx] at h
      simp only [Option.all_some, List.all_eq_true, decide_eq_true_eq] at h
      have := h c' ((constituents_of_lower hx c').mpr hc')
      rw [hty] at this
      rcases hv' with rfl | rfl
      · exact this.1 rfl
      · exact this.2 rfl
  · cases hx : lowerEnum p.2 with
    | none => rw [hx] at h; cases h
    | some vs => exact hnc (lowerEnum_some hx).1

theorem move_lowers : ∃ a, lower moveGrammar = some a := by
  cases h : lower moveGrammar with
  | none =>
    have hd : (lower moveGrammar).isSome = true := by decide +kernel
    rw [h] at hd
    cases hd
  | some a => exact ⟨a, rfl⟩

theorem move_alternatives : ∀ p, p ∈ moveGrammar → IsChoice p.2 → ∃ v, Alternative p.2 v := by
  intro p hp hc
  rw [move_only_choice hp hc]
  exact ⟨"BinExpr".toList, _, rfl, by simp [n]⟩

/-- The repository's grammar meets the hypotheses of `unique_fields_partial`. -/
example : ∃ a, lower moveGrammar = some a ∧ ∀ n, n ∈ a.nodes → n.fields.Nodup := by
  obtain ⟨a, h⟩ := move_lowers
  exact ⟨a, h, unique_fields_partial h (by decide +kernel) move_alternatives move_unmixed⟩

/-- `constituents_covered_partial` on `ExprStmt`. -/
example : ∃ a, lower moveGrammar = some a ∧ ∃ n, n ∈ a.nodes ∧ n.name = "ExprStmt".toList := by
  obtain ⟨a, h⟩ := move_lowers
  obtain ⟨n, hn, he, _⟩ := constituents_covered_partial h "ExprStmt".toList (.seq [.node "Expr".toList, .token [';']])
    (by simp [moveGrammar, n, t]) (by rintro ⟨rs, hrs, _⟩; cases hrs)
  exact ⟨a, h, n, hn, he⟩

/-- A constituent merged into a choice. -/
example : ∃ a, lower mixedGrammar = some a ∧ Merged mixedGrammar (.node "expr".toList "Expr".toList .optional) "A".toList := by
  refine ⟨_, rfl, "Expr".toList, .alt [n "A", n "B"], "A".toList, ?_, ?_, ?_, .refl _, ?_⟩
  · simp [mixedGrammar]
  · refine ⟨_, rfl, ?_⟩
    intro a ha
    simp at ha
    rcases ha with rfl | rfl
    · exact Or.inl ⟨_, rfl⟩
    · exact Or.inl ⟨_, rfl⟩
  · exact ⟨_, rfl, by simp [n]⟩
  · decide +kernel

/-- A comma list: `A (',' A)* ','?` has the constituent `as`. -/
example : Constituent none (.seq [n "A", .rep (.seq [t ",", n "A"]), .opt (t ",")])
    (.node "as".toList "A".toList .many) :=
  .list none _ "A".toList ⟨t ",", rfl⟩

/-- A rule the generator does not support: a label on a token. -/
example : ¬ Supported none (l "op" (t "+")) := by
  intro h
  cases h with
  | labeled _ _ h => cases h

end Verif.AstGen
