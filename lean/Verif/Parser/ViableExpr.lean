import Verif.Parser.ViableSpec

set_option autoImplicit false

/-!
What has been read where the functions of the grammar for expressions, statements and blocks meet
their first error.
-/

namespace Verif.Parser

open Language Lexer

section
variable {c : (f : Fn) → TState → Out TState f.Res} {e : Fn → TState → TState → Prop} {α : Type}
  {w w' : List Tok} {u n : Nat} {i i' : Forest} {o : List (Forest × Forest)} {V V' : List Tok → Prop}
  {F : Prop}

/-! ### Literals -/

theorem ve_bumpAddress : Ve c e bumpAddress ⟨w, u, n, i, o⟩ V False := by
  unfold bumpAddress
  vred
  split
  · refine ve_bump _ nofun ?_
    rintro t l1 l2 w1 u1 n1 rfl
    exact ve_done _ _
  · vred
    split
    · rename_i h
      obtain ⟨t, l1, l2, w1, rfl⟩ := cons_of_kind0 (show kind0 w = .INTEGER_NUMBER by simpa using h) nofun
      vred
      split
      · exact fun _ => ⟨fun t ht => absurd ht id, fun hf => hf.elim⟩
      · exact ve_done _ _
    · exact ve_done _ _

/-- If no address can be read, nothing is read. -/
theorem sd_bumpAddress_stay : Sd c bumpAddress ⟨w, u, n, i, o⟩
    (Ret o fun r w' i' => (r = true → TookAddress w i w' i') ∧ (r = false → w' = w ∧ i' = i)) := by
  unfold bumpAddress
  sred
  split
  · refine sd_bump _ nofun ?_
    rintro t l1 l2 w1 u1 n1 rfl
    exact sd_pure _ _ ⟨rfl, fun _ => .inl (.tok t l1 l2 _ rfl), nofun⟩
  · sred
    split
    · rename_i h
      obtain ⟨t, l1, l2, w1, rfl⟩ := cons_of_kind0 (show kind0 w = .INTEGER_NUMBER by simpa using h) nofun
      sred
      split
      · rename_i hx
        have hx : startsWith t "0x" = true := hx
        unfold startsWith at hx
        rw [List.isPrefixOf_iff_prefix] at hx
        obtain ⟨t', rfl⟩ := hx
        intro hw a s' e
        cases e
        exact ⟨rfl, fun _ => .inr ⟨[_], [.leaf .DIEM_ADDRESS], rfl, DerivesBy.hex .nil, rfl⟩, nofun⟩
      · exact sd_pure _ _ ⟨rfl, nofun, fun _ => ⟨rfl, rfl⟩⟩
    · exact sd_pure _ _ ⟨rfl, nofun, fun _ => ⟨rfl, rfl⟩⟩

theorem ve_addressLit (H : Stops c e) : Ve c e addressLit ⟨w, u, n, i, o⟩ (Begun [.nt .addressLit] w) False := by
  unfold addressLit
  rw [ve_at_eq]
  refine ve_assert _ _ _ fun _ => ?_
  vred
  refine ve_bump _ nofun ?_
  rintro t l1 l2 w1 u1 n1 rfl
  refine ve_seq H.shrinks sd_bumpAddress_stay ve_bumpAddress ?_
  intro r w2 u2 n2 i2 h2
  cases r with
  | false =>
    vred
    obtain ⟨rfl, rfl⟩ := h2.2 rfl
    exact ve_errorAndSkipUntil _ _ _ (.rule (.strict .address_lit_name) (Took.tok t l1 l2 .nil rfl).stop)
  | true =>
    vred
    exact ve_complete' _ False.elim

theorem ve_literal (H : Stops c e) : Ve c e literal ⟨w, u, n, i, o⟩ (Begun [.nt .atom] w) False := by
  unfold literal
  vred
  cases hf : LITERAL_FIRST.contains (kind0 w) with
  | false =>
    vred
    exact ve_done _ _
  | true =>
    vred
    have hm := literal_first_mem _ hf
    split
    · refine ve_seq H.shrinks (sd_addressLit H.toMeets)
        (ve_sub (ve_addressLit H) fun w' h => h.rule (.strict .atom_address)) ?_
      intro _ w1 u1 n1 i1 h1
      vred
      exact ve_done _ _
    · rename_i hne
      refine ve_bumpAny _ rfl ?_ ?_
      · rcases hm with h | h | h | h | h | h <;> rw [h] <;> nofun
      · intro t l1 l2 w1 u1 n1 _
        vred
        exact ve_done _ _

/-! ### Atoms -/

theorem ve_expr (H : Stops c e) : Ve c e expr ⟨w, u, n, i, o⟩ (Begun [.nt (.expr 1)] w) True :=
  H.callF (.exprBp 1) trivial fun _ h => h (Nat.le_refl 1)

theorem ve_parenLoop (H : Stops c e) : Ve c e parenLoopBody ⟨w, u, n, i, o⟩
    (fun w' => ∃ m, Begun (List.replicate m (.nt (.expr 1))) w w') True := by
  unfold parenLoopBody
  refine ve_neither _ _ _ (fun u' _ => ?_) (fun u' _ hne => ?_)
  · vred
    exact ve_pure _ _ fun _ => ⟨0, .here _⟩
  · vred
    refine ve_seq_fin H.shrinks H.cuts (sd_expr H.toMeets) (ve_subT (ve_expr H) fun w' h => ⟨1, h⟩) ?_
    rintro r w1 u1 n1 i1 ⟨hr, h1⟩
    rw [hr]
    vred
    refine H.callF .parenLoop trivial ?_
    rintro w' ⟨m, h2⟩
    exact ⟨m + 1, h1.took.then h2⟩

theorem ve_parenExpr (H : Stops c e) : Ve c e parenExpr ⟨w, u, n, i, o⟩ (Begun [.nt .atom] w) True := by
  unfold parenExpr
  rw [ve_at_eq]
  refine ve_assert _ _ _ fun _ => ?_
  vred
  refine ve_expect _ nofun (.here _) ?_
  rintro t l1 l2 w1 u1 n1 rfl
  have ht := Took.tok (w := w1) t l1 l2 .nil (k := .L_PAREN) rfl
  refine ve_seq_fin H.shrinks H.cuts (H.toMeets.call .parenLoop) (H.callF .parenLoop trivial ?_) ?_
  · rintro w' ⟨m, h⟩
    exact .rule (.parens m) (ht.then (h.pad (b := [.tok .R_PAREN])))
  rintro _ w2 u2 n2 i2 ⟨rfl, m, h2⟩
  vred
  refine ve_expect _ nofun (.rule (.parens m) (ht.then (h2.stop (b := [.tok .R_PAREN])))) ?_
  rintro t' l1' l2' w3 u3 n3 rfl
  vred
  refine ve_complete' _ fun _ => ?_
  exact .rule (.parens m) (ht.then (h2.then (Took.tok t' l1' l2' .nil rfl).begun))

theorem ve_blockLoop (H : Stops c e) : Ve c e blockLoopBody ⟨w, u, n, i, o⟩ (Begun [.nt .stmts] w) True := by
  unfold blockLoopBody
  refine ve_neither _ _ _ (fun u' _ => ?_) (fun u' _ hne => ?_)
  · vred
    exact ve_pure _ _ fun _ => .here _
  · vred
    refine ve_seq_fin H.shrinks H.cuts (H.toMeets.call (.stmt .optional))
      (H.callF (.stmt .optional) trivial fun w' h => .rule (.strict .stmts_cons) (h.pad (b := [.nt .stmts]))) ?_
    intro _ w1 u1 n1 i1 h1
    exact H.callF .blockLoop trivial fun w' h => .rule (.strict .stmts_cons) (Took.then h1 h)

theorem ve_blockExprUnchecked (H : Stops c e) :
    Ve c e blockExprUnchecked ⟨w, u, n, i, o⟩ (Begun [.nt .block] w) False := by
  unfold blockExprUnchecked
  rw [ve_at_eq]
  refine ve_assert _ _ _ fun _ => ?_
  vred
  refine ve_bump _ nofun ?_
  rintro t l1 l2 w1 u1 n1 rfl
  have ht := Took.tok (w := w1) t l1 l2 .nil (k := .L_BRACE) rfl
  refine ve_seq_fin H.shrinks H.cuts (H.toMeets.call .blockLoop)
    (H.callF .blockLoop trivial fun w' h => .rule (.strict .block) (ht.mid h)) ?_
  intro _ w2 u2 n2 i2 h2
  refine ve_expect _ nofun (.rule (.strict .block) (ht.trans h2).stop) ?_
  rintro t' l1' l2' w3 u3 n3 rfl
  exact ve_complete' _ False.elim

theorem ve_blockExpr (H : Stops c e) : Ve c e blockExpr ⟨w, u, n, i, o⟩ (Begun [.nt .block] w) False := by
  unfold blockExpr
  refine ve_at _ (fun u' h => ?_) (fun u' h => ?_)
  · vred
    refine ve_seq H.shrinks (sd_blockExprUnchecked H.toMeets) (ve_blockExprUnchecked H) ?_
    intro _ w1 u1 n1 i1 h1
    exact ve_done _ _
  · vred
    exact ve_error _ _ _ (.here _)

theorem ve_recordExprField (H : Stops c e) :
    Ve c e recordExprField ⟨w, u, n, i, o⟩ (Begun [.nt .exprField] w) True := by
  unfold recordExprField
  vred
  split
  · vred
    split
    · refine ve_seq H.shrinks (sd_nameRef H.toMeets) (ve_nameRef (.here _)) ?_
      intro _ w1 u1 n1 i1 h1
      refine ve_expect _ nofun (.rule (.strict .expr_field) h1.nameRef.stop) ?_
      rintro t l1 l2 w2 u2 n2 rfl
      have h2 := h1.nameRef.trans (.tok t l1 l2 _ rfl)
      vred
      refine ve_seq_fin H.shrinks H.cuts (sd_expr H.toMeets)
        (ve_subT (ve_expr H) fun w' h => (h2.then h).rule (.strict .expr_field)) ?_
      rintro _ w3 u3 n3 i3 ⟨_, h3⟩
      vred
      exact ve_pure _ _ fun _ => (h2.trans h3.took).begun.rule (.strict .expr_field)
    · refine ve_seq_fin H.shrinks H.cuts (sd_expr H.toMeets)
        (ve_subT (ve_expr H) fun w' h => h.rule .field_expr) ?_
      rintro _ w3 u3 n3 i3 ⟨_, h3⟩
      vred
      exact ve_pure _ _ fun _ => h3.took.begun.rule .field_expr
  · split
    · exact ve_errorBlock _ _ (.here _)
    · exact ve_errRecover _ _ _ (.here _)

theorem ve_recordExprLoop (H : Stops c e) :
    Ve c e recordExprLoopBody ⟨w, u, n, i, o⟩ (BegunList .exprFields .R_BRACE w) True := by
  unfold recordExprLoopBody
  refine ve_neither _ _ _ (fun u' _ => ?_) (fun u' _ hne => ?_)
  · vred
    refine ve_pure_nil _ _ fun _ (hn : w = []) => ?_
    subst hn
    exact ⟨.here _, nofun⟩
  · vred
    refine ve_seq_fin H.shrinks H.cuts (sd_recordExprField H.toMeets)
      (ve_subT (ve_recordExprField H) fun w' h => ⟨h.rule (.strict .expr_fields_one), hne⟩) ?_
    intro _ w1 u1 n1 i1 h1
    refine ve_at _ (fun u' h => ?_) (fun u' h => ?_)
    · vred
      exact H.callF .recordExprLoop trivial fun w' h' => absurd h h'.2
    · vred
      refine ve_expect _ nofun ⟨.rule (.strict .expr_fields_cons) h1.stop, hne⟩ ?_
      rintro t l1 l2 w2 u2 n2 rfl
      vred
      exact H.callF .recordExprLoop trivial fun w' h =>
        ⟨((h1.trans (.tok t l1 l2 _ rfl)).then h.1).rule (.strict .expr_fields_cons), hne⟩

theorem ve_recordExprFieldList (H : Stops c e) :
    Ve c e recordExprFieldList ⟨w, u, n, i, o⟩ (Begun [.nt .exprFieldList] w) False := by
  unfold recordExprFieldList
  rw [ve_at_eq]
  refine ve_assert _ _ _ fun _ => ?_
  vred
  refine ve_bump _ nofun ?_
  rintro t l1 l2 w1 u1 n1 rfl
  have ht := Took.tok (w := w1) t l1 l2 .nil (k := .L_BRACE) rfl
  refine ve_seq_fin H.shrinks H.cuts (H.toMeets.call .recordExprLoop)
    (H.callF .recordExprLoop trivial fun w' h => .rule (.strict .expr_field_list) (ht.mid h.1)) ?_
  intro _ w2 u2 n2 i2 h2
  refine ve_expect _ nofun (.rule (.strict .expr_field_list) (ht.trans h2.1).stop) ?_
  rintro t' l1' l2' w3 u3 n3 rfl
  vred
  exact ve_done _ _

theorem ve_pathExpr (H : Stops c e) : Ve c e pathExpr ⟨w, u, n, i, o⟩ (Begun [.nt .atom] w) False := by
  unfold pathExpr
  vred
  refine ve_assert _ _ _ fun h => ?_
  vred
  refine ve_seq H.shrinks (sd_path H.toMeets (by simpa using h))
    (ve_sub (ve_path H (by simpa using h)) fun w' h => h.1.rule (.strict .atom_path)) ?_
  intro _ w1 u1 n1 i1 h1
  vred
  split
  · refine ve_seq H.shrinks (sd_recordExprFieldList H.toMeets)
      (ve_sub (ve_recordExprFieldList H) fun w' h => (h1.1.took.then h).rule (.strict .atom_record)) ?_
    intro _ w2 u2 n2 i2 h2
    exact ve_complete' _ False.elim
  · exact ve_complete' _ False.elim

theorem ve_atomExpr (H : Stops c e) : Ve c e atomExpr ⟨w, u, n, i, o⟩ (Begun [.nt .atom] w) True := by
  unfold atomExpr
  refine ve_seq H.shrinks (sd_literal H.toMeets) (ve_literal H) ?_
  rintro r w1 u1 n1 i1 (⟨rfl, rfl, rfl⟩ | ⟨⟨cm, rfl⟩, h1⟩)
  · vred
    split
    · refine ve_seq H.shrinks (sd_pathExpr H.toMeets) (ve_pathExpr H) ?_
      intro cm w1 u1 n1 i1 h1
      exact ve_pure _ _ fun _ => h1.took.begun
    · split
      · refine ve_seq_fin H.shrinks H.cuts (sd_parenExpr H.toMeets) (ve_parenExpr H) ?_
        intro cm w1 u1 n1 i1 h1
        exact ve_pure _ _ fun _ => h1.took.begun
      · split
        · refine ve_seq H.shrinks (sd_blockExprUnchecked H.toMeets)
            (ve_sub (ve_blockExprUnchecked H) fun w' h => h.rule (.strict .atom_block)) ?_
          intro cm w1 u1 n1 i1 h1
          exact ve_pure _ _ fun _ => h1.took.begun.rule (.strict .atom_block)
        · exact ve_errorAndSkipUntil _ _ _ (.here _)
  · exact ve_pure _ _ fun _ => h1.took.begun

/-! ### Calls and fields -/

theorem ve_argLoop (H : Stops c e) :
    Ve c e argLoopBody ⟨w, u, n, i, o⟩ (BegunList .args .R_PAREN w) True := by
  unfold argLoopBody
  refine ve_neither _ _ _ (fun u' h => ?_) (fun u' hne _ => ?_)
  · vred
    refine ve_pure_nil _ _ fun _ (hn : w = []) => ?_
    subst hn
    exact ⟨.here _, nofun⟩
  · vred
    refine ve_seq_fin H.shrinks H.cuts (sd_expr H.toMeets)
      (ve_subT (ve_expr H) fun w' h => ⟨h.rule (.strict .args_one), hne⟩) ?_
    rintro r w1 u1 n1 i1 ⟨hr, h1⟩
    rw [hr]
    vred
    refine ve_at _ (fun u' h => ?_) (fun u' h => ?_)
    · vred
      exact H.callF .argLoop trivial fun w' h' => absurd h h'.2
    · vred
      refine ve_expect _ nofun ⟨.rule (.strict .args_cons) h1.took.stop, hne⟩ ?_
      rintro t l1 l2 w2 u2 n2 rfl
      vred
      exact H.callF .argLoop trivial fun w' h =>
        ⟨((h1.took.trans (.tok t l1 l2 _ rfl)).then h.1).rule (.strict .args_cons), hne⟩

theorem ve_argList (H : Stops c e) : Ve c e argList ⟨w, u, n, i, o⟩ (Begun [.nt .argList] w) True := by
  unfold argList
  rw [ve_at_eq]
  refine ve_assert _ _ _ fun _ => ?_
  vred
  refine ve_bump _ nofun ?_
  rintro t l1 l2 w1 u1 n1 rfl
  have ht := Took.tok (w := w1) t l1 l2 .nil (k := .L_PAREN) rfl
  refine ve_seq_fin H.shrinks H.cuts (H.toMeets.call .argLoop)
    (H.callF .argLoop trivial fun w' h => .rule (.strict .arg_list) (ht.mid h.1)) ?_
  rintro _ w2 u2 n2 i2 ⟨h2, h3⟩
  refine ve_eat _ nofun ?_ fun _ h => absurd h3 h
  rintro t' l1' l2' w3 u3 n3 rfl
  vred
  exact ve_pure _ _ fun _ => (ht.trans (h2.1.trans (.tok t' l1' l2' _ rfl))).begun.rule (.strict .arg_list)

theorem ve_postfixLoop (H : Stops c e) (lhs : Completed) {j pre kids : Forest} {k : Kind} :
    Ve c e (postfixLoopBody lhs) ⟨w, u, n, .node j k pre kids, o⟩
      (Growing .postfixed .postfixed w (.node j k pre kids)) True := by
  unfold postfixLoopBody
  vred
  split
  · unfold callExpr
    vred
    rw [ve_at_eq]
    refine ve_assert _ _ _ fun _ => ?_
    vred
    refine ve_seq_fin H.shrinks H.cuts (sd_argList H.toMeets)
      (ve_subT (ve_argList H) fun w' h => .node (.strict .postfixed_call) (fun _ _ d => d) h) ?_
    intro _ w1 u1 n1 i1 h1
    vred
    exact H.callF (.postfixLoop _) trivial fun w' h =>
      (Grew.node (.strict .postfixed_call) (fun _ _ d => d) h1).then (h _ _ _ _ rfl)
  · split
    · unfold fieldExpr
      vred
      rw [ve_at_eq]
      refine ve_assert _ _ _ fun _ => ?_
      vred
      refine ve_bump _ nofun ?_
      rintro t l1 l2 w1 u1 n1 rfl
      have ht := Took.tok (w := w1) t l1 l2 .nil (k := .DOT) rfl
      refine ve_at _ (fun u' h => ?_) (fun u' h => ?_)
      · vred
        refine ve_seq H.shrinks (sd_nameRef H.toMeets) (ve_nameRef_ident h) ?_
        intro _ w2 u2 n2 i2 h2
        vred
        exact H.callF (.postfixLoop _) trivial fun w' h =>
          (Grew.node (.strict .postfixed_dot) (fun _ _ d => d) (ht.trans h2.nameRef)).then (h _ _ _ _ rfl)
      · vred
        exact ve_error _ _ _ (.node (.strict .postfixed_dot) (fun _ _ d => d) ht.stop)
    · exact ve_pure _ _ fun _ => (Grew.stay (fun _ _ d => d) _ _).growing

/-! ### Operators -/

theorem ve_lhsExpr (H : Stops c e) : Ve c e lhsExpr ⟨w, u, n, i, o⟩ (Begun [.nt .unary] w) True := by
  unfold lhsExpr
  vred
  split
  · rename_i h
    have key : ∀ k, kind0 w = k → k ≠ .EOF → k.isTrivia = false →
        Lenient .unary (some .PREFIX_EXPR) [.tok k, .nt .unary] → ∀ u n m,
        Ve c e (bumpAny >>= fun _ => (call (.exprBp 255) : Prog (Option Completed)) >>= fun _ =>
          Marker.complete m .PREFIX_EXPR >>= fun x => pure (some x))
          ⟨w, u, n, .nil, (.nil, i) :: o⟩ (Begun [.nt .unary] w) True := by
      intro k hk h1 h2 r u n m
      refine ve_bumpAny _ hk h1 ?_
      rintro t l1 l2 w1 u1 n1 rfl
      have ht := Took.tok (w := w1) t l1 l2 .nil (k := k) h2
      refine ve_seq_fin H.shrinks H.cuts (sd_mono (H.toMeets.call (.exprBp 255)) fun _ _ h => h (by decide))
        (H.callF (.exprBp 255) trivial fun w' h => .rule r (ht.then (h (by decide)))) ?_
      rintro _ w2 u2 n2 i2 ⟨_, h2', _⟩
      vred
      exact ve_pure _ _ fun _ => .rule r (ht.then h2'.took.begun)
    simp only [Bool.or_eq_true, beq_iff_eq] at h
    rcases h with (h | h) | h
    · exact key _ h nofun rfl (.strict .unary_star) _ _ _
    · exact key _ h nofun rfl (.strict .unary_bang) _ _ _
    · exact key _ h nofun rfl (.strict .unary_minus) _ _ _
  · refine ve_seq_fin H.shrinks H.cuts (sd_atomExpr H.toMeets) (ve_subT (ve_atomExpr H) fun w' h =>
      (h.rule (.strict .postfixed_atom)).rule (.strict .unary_postfixed)) ?_
    rintro _ w1 u1 n1 i1 ⟨⟨cm, rfl⟩, h1⟩
    obtain ⟨k, pre, kids, rfl⟩ := h1.exists
    have h1 := TookNode.flat (.strict .postfixed_atom) h1
    refine ve_seq_fin H.shrinks H.cuts (sd_mono (H.toMeets.call (.postfixLoop cm)) fun _ _ h => h _ _ _ _ rfl)
      (H.callF (.postfixLoop cm) trivial fun w' h =>
        (h1.growing (h _ _ _ _ rfl)).rule (.strict .unary_postfixed)) ?_
    intro r w2 u2 n2 i2 h2
    exact ve_pure _ _ fun _ => (h1.grow h2).took.begun.rule (.strict .unary_postfixed)

theorem ve_exprBpLoop (H : Stops c e) (bp : Nat) (hbp : 1 ≤ bp) (lhs : Completed) {j pre kids : Forest} {k : Kind} :
    Ve c e (exprBpLoopBody bp lhs) ⟨w, u, n, .node j k pre kids, o⟩ (fun w' => (12 < bp → w' = w) ∧
      ∀ q, bp ≤ q → q ≤ 12 → nextOp w ≤ q → Growing (.expr q) (.expr bp) w (.node j k pre kids) w') True := by
  have hle := nextOp_le w
  have hsome := opTable_some (kind0 w)
  unfold nextOp at hle
  unfold exprBpLoopBody currentOp
  vred
  cases hop : opTable (kind0 w) with
  | mk p op =>
    rw [hop] at hle hsome
    simp only
    split
    · rename_i hlt
      exact ve_pure _ _ fun _ => ⟨fun _ => rfl, fun q h1 h2 _ => (Grew.stay (fun _ _ d => d.loosen h2 h1) _ _).growing⟩
    · rename_i hlt
      obtain ⟨e1, e2, e3, e4, e5⟩ := hsome (by show 1 ≤ p; omega)
      have e1 : op = kind0 w := e1
      subst e1
      vred
      refine ve_bump _ e4 ?_
      intro t l1 l2 w1 u1 n1 ew
      have hl : levelNT (p + 1) = .expr (p + 1) := by
        unfold levelNT
        rw [if_pos (by omega)]
      have hn' : ∀ q, nextOp w ≤ q → p ≤ q := by
        intro q hn
        have : (opTable (kind0 w)).1 ≤ q := hn
        rwa [hop] at this
      have h12 : ¬ 12 < bp := by
        have : p ≤ 11 := hle
        omega
      have ht : ∀ wx, wx = ⟨kind0 w, t, l1, l2⟩ :: w1 → Took [.tok (kind0 w)] wx .nil w1 (.tok .nil (kind0 w)) := by
        rintro _ rfl
        exact .tok t l1 l2 .nil e5
      refine ve_seq_fin H.shrinks H.cuts (sd_mono (H.toMeets.call (.exprBp (p + 1))) fun _ _ h => h (by omega))
        (H.callF (.exprBp (p + 1)) trivial fun w' h => ⟨fun h => absurd h h12, fun q h1 hq hn => ?_⟩) ?_
      · have h := h (by omega)
        rw [hl] at h
        have hg : Growing (.expr q) (.expr p) w (.node j k pre kids) w' :=
          .node (.strict (.expr_bin e3)) (fun _ _ d => d.loosen hq (hn' q hn)) ((ht w ew).then h)
        intro j' k' pre' kids' ej
        obtain ⟨v, ev, hd⟩ := hg j' k' pre' kids' ej
        refine ⟨v, ev, fun v0 d0 => ?_⟩
        obtain ⟨r, sh, hd⟩ := hd v0 d0
        exact ⟨r, sh, hd.loosen (by omega) (by omega)⟩
      rintro _ w2 u2 n2 i2 ⟨_, h2, h3⟩
      rw [hl] at h2
      vred
      refine H.callF (.exprBpLoop bp _) trivial fun w' h => ⟨fun h => absurd h h12, fun q h1 hq hn => ?_⟩
      have hg : Grew (.expr q) (.expr p) w (.node j k pre kids) w2 _ :=
        Grew.node (.strict (.expr_bin e3)) (fun _ _ d => d.loosen hq (hn' q hn)) ((ht w ew).trans h2.took)
      exact hg.then ((h hbp _ _ _ _ rfl).2 p (by omega) (by omega) (by omega))

theorem ve_exprBp (H : Stops c e) (bp : Nat) (hbp : 1 ≤ bp) :
    Ve c e (exprBpBody bp) ⟨w, u, n, i, o⟩ (Begun [.nt (levelNT bp)] w) True := by
  have lift : ∀ w', Begun [.nt .unary] w w' → Begun [.nt (levelNT bp)] w w' := by
    intro w' h
    unfold levelNT
    split
    · rename_i h12
      exact (h.rule (.strict .expr_unary)).loosen (Nat.le_refl _) h12
    · exact h
  unfold exprBpBody
  refine ve_seq_fin H.shrinks H.cuts (sd_lhsExpr H.toMeets) (ve_subT (ve_lhsExpr H) lift) ?_
  rintro _ w1 u1 n1 i1 ⟨⟨cm, rfl⟩, h1⟩
  obtain ⟨k, pre, kids, rfl⟩ := h1.exists
  have hle := nextOp_le w1
  refine ve_seq_fin H.shrinks H.cuts (sd_mono (H.toMeets.call (.exprBpLoop bp cm)) fun _ _ h => h hbp _ _ _ _ rfl)
    (H.callF (.exprBpLoop bp cm) trivial fun w' h => ?_) ?_
  · obtain ⟨h2, h3⟩ := h hbp _ _ _ _ rfl
    by_cases h12 : bp ≤ 12
    · unfold levelNT
      rw [if_pos h12]
      exact (TookNode.flat (.strict .expr_unary) h1).growing (h3 12 h12 (Nat.le_refl _) (by omega))
    · rw [h2 (by omega)]
      exact lift _ h1.took.begun
  · rintro r w2 u2 n2 i2 ⟨h2, h3, h4⟩
    refine ve_pure _ _ fun _ => ?_
    show Begun _ w w2
    by_cases h12 : bp ≤ 12
    · unfold levelNT
      rw [if_pos h12]
      exact ((TookNode.flat (.strict .expr_unary) h1).grow (h3 12 h12 (Nat.le_refl _) (by omega))).took.begun
    · rw [(h2 (by omega)).1]
      exact lift _ h1.took.begun

/-! ### Statements -/

theorem ve_semi : Ve c e (semi .optional) ⟨w, u, n, i, o⟩ V False := by
  unfold semi
  refine ve_at _ (fun u' h => ?_) (fun u' h => ?_)
  · vred
    refine ve_eat _ nofun ?_ fun _ h' => absurd h h'
    rintro t l1 l2 w1 u1 n1 rfl
    exact ve_done _ _
  · vred
    exact ve_done _ _

theorem ve_stmtEnd (H : Stops c e) (m : Marker) {k : Kind} {syms : List Sym} {w0 : List Tok}
    (r1 : Lenient .stmt (some k) (syms ++ [.tok .SEMICOLON])) (r2 : Lenient .stmt (some k) syms)
    (h : Took syms w0 .nil w i') :
    Ve c e (do
      semi .optional
      let _ ← m.complete k
      pure ()) ⟨w, u, n, i', (.nil, i) :: o⟩ (Begun [.nt .stmt] w0) True := by
  refine ve_seq H.shrinks sd_semi ve_semi ?_
  rintro _ w1 u1 n1 i1 (h1 | ⟨rfl, rfl⟩)
  · vred
    exact ve_pure _ _ fun _ => .rule r1 (h.then h1.begun)
  · vred
    exact ve_pure _ _ fun _ => .rule r2 h.begun

theorem ve_letStmt (H : Stops c e) (m : Marker) :
    Ve c e (letStmt m .optional) ⟨w, u, n, .nil, (.nil, i) :: o⟩ (Begun [.nt .stmt] w) True := by
  unfold letStmt
  rw [ve_at_eq]
  refine ve_assert _ _ _ fun _ => ?_
  refine ve_bump _ nofun ?_
  rintro t l1 l2 w1 u1 n1 rfl
  have ht := Took.tok (w := w1) t l1 l2 .nil (k := .LET_KW) rfl
  refine ve_seq H.shrinks (H.toMeets.call .pattern) (H.call .pattern fun w' h => (ht.then h).rule .stmt_let) ?_
  intro _ w2 u2 n2 i2 h2
  have h2 := ht.trans h2
  refine ve_at _ (fun u' h => ?_) (fun u' h => ?_)
  · vred
    refine ve_seq H.shrinks (sd_ascription H.toMeets)
      (ve_sub (ve_ascription H) fun w' h => (h2.then h).rule .stmt_let_type) ?_
    intro _ w3 u3 n3 i3 h3
    have h3 := h2.trans h3
    refine ve_eat _ nofun ?_ ?_
    · rintro t l1 l2 w4 u4 n4 rfl
      have h4 := h3.trans (.tok t l1 l2 _ rfl)
      vred
      refine ve_seq_fin H.shrinks H.cuts (sd_expr H.toMeets)
        (ve_subT (ve_expr H) fun w' h => (h4.then h).rule .stmt_let_both) ?_
      rintro _ w5 u5 n5 i5 ⟨_, h5⟩
      exact ve_stmtEnd H m (.strict .stmt_let_both) .stmt_let_both (h4.trans h5.took)
    · intro u4 _
      vred
      exact ve_stmtEnd H m (.strict .stmt_let_type) .stmt_let_type h3
  · vred
    refine ve_eat _ nofun ?_ ?_
    · rintro t l1 l2 w4 u4 n4 rfl
      have h4 := h2.trans (.tok t l1 l2 _ rfl)
      vred
      refine ve_seq_fin H.shrinks H.cuts (sd_expr H.toMeets)
        (ve_subT (ve_expr H) fun w' h => (h4.then h).rule .stmt_let_init) ?_
      rintro _ w5 u5 n5 i5 ⟨_, h5⟩
      exact ve_stmtEnd H m (.strict .stmt_let_init) .stmt_let_init (h4.trans h5.took)
    · intro u4 _
      vred
      exact ve_stmtEnd H m (.strict .stmt_let) .stmt_let h2

theorem ve_stmt (H : Stops c e) : Ve c e (stmtBody .optional) ⟨w, u, n, i, o⟩ (Begun [.nt .stmt] w) True := by
  unfold stmtBody
  vred
  refine ve_at _ (fun u' h => ?_) (fun u' h => ?_)
  · vred
    rw [show (do letStmt ⟨n⟩ .optional; pure ()) = letStmt ⟨n⟩ .optional from bind_pure_prog _]
    exact ve_letStmt H _
  · vred
    refine ve_seq_fin H.shrinks H.cuts (sd_expr H.toMeets) (ve_subT (ve_expr H) fun w' h => h.rule .stmt_expr) ?_
    rintro _ w1 u1 n1 i1 ⟨_, h1⟩
    exact ve_stmtEnd H _ (.strict .stmt_expr) .stmt_expr h1.took

end

end Verif.Parser
