import Verif.Parser.SoundItems

set_option autoImplicit false

/-!
What the functions of the grammar for expressions, statements and blocks have read when they return
without an error.
-/

namespace Verif.Parser

open Language Lexer

/-! ### Nodes that grow -/

section
variable {x y z : NT} {w w' w'' : List Tok} {i i' i'' j pre kids : Forest} {k K : Kind} {rhs : List Sym}

theorem TookNode.node (r : Lenient x (some k) rhs) (h : Took rhs w .nil w' i') :
    TookNode x w i w' (.node i k .nil i') := by
  obtain ⟨v, sh, e, d, hs⟩ := h
  refine ⟨k, .nil, i', v, rfl, e, ?_⟩
  have := d.rule r
  rwa [show nodeOf k .nil i' = .node k sh by simp only [nodeOf, hs, Forest.shape, List.nil_append]]

theorem TookNode.flat (r : Lenient x none [.nt y]) (h : TookNode y w i w' i') : TookNode x w i w' i' := by
  obtain ⟨k, pre, kids, v, e1, e2, d⟩ := h
  exact ⟨k, pre, kids, v, e1, e2, d.rule r⟩

theorem TookNode.grow (h1 : TookNode x w i w' i') (h2 : Grew x y w' i' w'' i'') : TookNode y w i w'' i'' := by
  obtain ⟨k, pre, kids, v, rfl, rfl, d⟩ := h1
  obtain ⟨k', pre', kids', v', rfl, rfl, d'⟩ := h2 _ _ _ _ rfl
  exact ⟨k', pre', kids', v ++ v', rfl, (List.append_assoc ..).symm, d' _ d⟩

theorem TookNode.exists (h : TookNode x w i w' i') : ∃ k pre kids, i' = .node i k pre kids := by
  obtain ⟨k, pre, kids, v, e, _⟩ := h
  exact ⟨k, pre, kids, e⟩

theorem Grew.stay (h : ∀ v sh, Der [.nt x] v sh → Der [.nt y] v sh) (w : List Tok) (i : Forest) :
    Grew x y w i w i := by
  intro j k pre kids e
  exact ⟨k, pre, kids, [], e, rfl, fun v0 d => by rw [List.append_nil]; exact h _ _ d⟩

theorem Grew.trans (h1 : Grew x y w i w' i') (h2 : Grew y z w' i' w'' i'') : Grew x z w i w'' i'' := by
  intro j k pre kids e
  obtain ⟨k', pre', kids', v, rfl, rfl, d⟩ := h1 _ _ _ _ e
  obtain ⟨k'', pre'', kids'', v', rfl, rfl, d'⟩ := h2 _ _ _ _ rfl
  exact ⟨k'', pre'', kids'', v ++ v', rfl, (List.append_assoc ..).symm, fun v0 h => by
    rw [← List.append_assoc]; exact d' _ (d _ h)⟩

/-- A node is put around the last one. -/
theorem Grew.node (r : Lenient y (some K) (.nt z :: rhs)) (hz : ∀ v sh, Der [.nt x] v sh → Der [.nt z] v sh)
    (h : Took rhs w .nil w' i') :
    Grew x y w (.node j k pre kids) w' (.node j K (.node .nil k pre kids) i') := by
  obtain ⟨v, sh, rfl, d, hs⟩ := h
  intro j' k' pre' kids' e
  cases e
  refine ⟨K, _, i', v, rfl, rfl, fun v0 d0 => ?_⟩
  have := ((hz _ _ d0).append d).rule r
  rwa [show nodeOf K (.node .nil k pre kids) i' = .node K ([nodeOf k pre kids] ++ sh) by
    simp only [nodeOf, hs, Forest.shape, List.nil_append]]

/-- A tighter expression is a looser one. -/
theorem Der.loosen {p q : Nat} (hq : q ≤ 12) {v : List Tok} {sh : List Shape} (hpq : p ≤ q)
    (d : Der [.nt (.expr q)] v sh) : Der [.nt (.expr p)] v sh := by
  induction hd : q - p generalizing p with
  | zero =>
    have : q = p := by omega
    rwa [← this]
  | succ m ih =>
    have : Der [.nt (.expr (p + 1))] v sh := ih (by omega) (by omega)
    exact this.rule (.strict (.expr_up (by omega)))

end

section
variable {c : (f : Fn) → TState → Out TState f.Res} {α : Type} {w w' : List Tok} {u n : Nat}
  {i i' : Forest} {o : List (Forest × Forest)} {Q : α → TState → Prop}

theorem sd_end_expect {k : Kind} (hk : k ≠ .EOF) (f : Bool → Prog α) :
    Sd c (expect k >>= f) ⟨[], u, n, i, o⟩ Q :=
  sd_expect _ hk fun _ _ _ _ _ _ e => by cases e

/-! ### Literals -/

theorem sd_bumpAny (f : Unit → Prog α) {k : Kind} (h : kind0 w = k) (hk : k ≠ .EOF)
    (h1 : ∀ t l1 l2 w' u' n', w = ⟨k, t, l1, l2⟩ :: w' → Sd c (f ()) ⟨w', u', n', .tok i k, o⟩ Q) :
    Sd c (bumpAny >>= f) ⟨w, u, n, i, o⟩ Q := by
  obtain ⟨t, l1, l2, w', rfl⟩ := cons_of_kind0 h hk
  unfold bumpAny
  rw [bind_assoc_prog, sd_current, h, if_neg (show ¬ (k == Kind.EOF) = true by simpa using hk)]
  intro hw a s' e
  exact h1 t l1 l2 w' u (n + 1) rfl hw.2.2 a s' e

/-- An address was read. -/
def TookAddress (w : List Tok) (i : Forest) (w' : List Tok) (i' : Forest) : Prop :=
  Took [.tok .IDENT] w i w' i' ∨ Took [.hex] w i w' i'

theorem sd_bumpAddress : Sd c bumpAddress ⟨w, u, n, i, o⟩
    (Ret o fun r w' i' => r = true → TookAddress w i w' i') := by
  unfold bumpAddress
  sred
  split
  · refine sd_bump _ nofun ?_
    rintro t l1 l2 w1 u1 n1 rfl
    exact sd_pure _ _ ⟨rfl, fun _ => .inl (.tok t l1 l2 _ rfl)⟩
  · sred
    split
    · rename_i h
      obtain ⟨t, l1, l2, w1, rfl⟩ := cons_of_kind0 (show kind0 w = .INTEGER_NUMBER by simpa using h) nofun
      sred
      split
      · rename_i hx
        have hx : startsWith t "0x" = true := hx
        unfold startsWith at hx
        rw [List.isPrefixOf_iff_prefix] at hx
        obtain ⟨t', rfl⟩ := hx
        intro hw a s' e
        cases e
        exact ⟨rfl, fun _ => .inr ⟨[_], [.leaf .DIEM_ADDRESS], rfl, DerivesBy.hex .nil, rfl⟩⟩
      · exact sd_pure _ _ ⟨rfl, nofun⟩
    · exact sd_pure _ _ ⟨rfl, nofun⟩

theorem sd_addressLit (H : Meets c) : Sd c addressLit ⟨w, u, n, i, o⟩
    (Ret o fun _ w' i' => Took [.nt .addressLit] w i w' i') := by
  unfold addressLit
  rw [sd_at_eq]
  refine sd_assert _ _ _ fun _ => ?_
  sred
  refine sd_bump _ nofun ?_
  rintro t l1 l2 w1 u1 n1 rfl
  refine sd_seq H.shrinks sd_bumpAddress ?_
  intro r w2 u2 n2 i2 h2
  cases r with
  | false => sred; exact sd_errorAndSkipUntil _ _ _ _
  | true =>
    sred
    rw [sd_complete']
    intro _
    rcases h2 rfl with h2 | h2
    · exact ⟨rfl, .node (.strict .address_lit_name) (Took.trans (.tok t l1 l2 _ rfl) h2)⟩
    · exact ⟨rfl, .node (.strict .address_lit_hex) (Took.trans (.tok t l1 l2 _ rfl) h2)⟩

theorem literal_first_mem (k : Kind) (h : LITERAL_FIRST.contains k = true) :
    k = .TRUE_KW ∨ k = .FALSE_KW ∨ k = .INTEGER_NUMBER ∨ k = .HEX_STRING ∨ k = .BYTE_STRING ∨ k = .ATSIGN := by
  revert h
  cases k <;> decide

theorem sd_literal (H : Meets c) : Sd c literal ⟨w, u, n, i, o⟩
    (Ret o fun r w' i' => (r = none ∧ w' = w ∧ i' = i) ∨ (∃ cm, r = some cm) ∧ TookNode .atom w i w' i') := by
  unfold literal
  sred
  cases hf : LITERAL_FIRST.contains (kind0 w) with
  | false =>
    sred
    exact sd_pure _ _ ⟨rfl, .inl ⟨rfl, rfl, rfl⟩⟩
  | true =>
    sred
    have hm := literal_first_mem _ hf
    split
    · refine sd_seq H.shrinks (sd_addressLit H) ?_
      intro _ w1 u1 n1 i1 h1
      sred
      exact sd_pure _ _ ⟨rfl, .inr ⟨⟨_, rfl⟩, .node (.strict .atom_address) h1⟩⟩
    · rename_i hne
      have key : ∀ k, kind0 w = k → k ≠ .EOF → k.isTrivia = false → Lenient .atom (some .LITERAL) [.tok k] →
          ∀ u n m, Sd c (bumpAny >>= fun _ => Marker.complete m .LITERAL >>= fun x => pure (some x))
            ⟨w, u, n, .nil, (.nil, i) :: o⟩ (Ret o fun r w' i' => (r = none ∧ w' = w ∧ i' = i) ∨
              (∃ cm, r = some cm) ∧ TookNode .atom w i w' i') := by
        intro k hk h1 h2 r u n m
        refine sd_bumpAny _ hk h1 ?_
        rintro t l1 l2 w1 u1 n1 rfl
        sred
        exact sd_pure _ _ ⟨rfl, .inr ⟨⟨_, rfl⟩, .node r (.tok t l1 l2 _ h2)⟩⟩
      rcases hm with h | h | h | h | h | h
      · exact key _ h nofun rfl (.strict .atom_true) _ _ _
      · exact key _ h nofun rfl (.strict .atom_false) _ _ _
      · exact key _ h nofun rfl (.strict .atom_integer) _ _ _
      · exact key _ h nofun rfl (.strict .atom_hex_string) _ _ _
      · exact key _ h nofun rfl (.strict .atom_byte_string) _ _ _
      · rw [h] at hne; exact absurd rfl hne

/-! ### Atoms -/

theorem sd_expr (H : Meets c) : Sd c expr ⟨w, u, n, i, o⟩
    (Fin o fun r w' i' => r.isNone = false ∧ TookNode (.expr 1) w i w' i') :=
  sd_mono (H.call (.exprBp 1)) fun _ _ h => (h (Nat.le_refl 1)).imp id fun h => ⟨h.1, h.2.1, h.2.2.1⟩

theorem sd_parenLoop (H : Meets c) : Sd c parenLoopBody ⟨w, u, n, i, o⟩
    (Fin o fun r w' i' => r = true ∧ ∃ m, Took (List.replicate m (.nt (.expr 1))) w i w' i') := by
  unfold parenLoopBody
  refine sd_neither _ _ _ (fun u' _ => ?_) (fun u' _ hne => ?_)
  · sred
    exact sd_pure _ _ (.inr ⟨rfl, rfl, 0, .refl _ _⟩)
  · sred
    refine sd_seq_fin H.shrinks (sd_expr H) ?_
    rintro r w1 u1 n1 i1 ⟨hr, h1⟩
    rw [hr]
    sred
    refine sd_mono (H.call .parenLoop) ?_
    rintro _ s' (h | ⟨ho, hr, m, h2⟩)
    · exact .inl h
    · exact .inr ⟨ho, hr, m + 1, h1.took.trans h2⟩

theorem sd_parenExpr (H : Meets c) : Sd c parenExpr ⟨w, u, n, i, o⟩
    (Fin o fun _ w' i' => TookNode .atom w i w' i') := by
  unfold parenExpr
  rw [sd_at_eq]
  refine sd_assert _ _ _ fun _ => ?_
  sred
  refine sd_expect _ nofun ?_
  rintro t l1 l2 w1 u1 n1 rfl
  refine sd_seq_fin H.shrinks (H.call .parenLoop) ?_
  rintro _ w2 u2 n2 i2 ⟨rfl, m, h2⟩
  sred
  refine sd_expect _ nofun ?_
  rintro t' l1' l2' w3 u3 n3 rfl
  sred
  rw [sd_complete']
  intro _
  exact .inr ⟨rfl, .node (.parens m) ((Took.tok t l1 l2 _ rfl).trans (h2.trans (.tok t' l1' l2' _ rfl)))⟩

theorem sd_blockLoop (H : Meets c) : Sd c blockLoopBody ⟨w, u, n, i, o⟩
    (Fin o fun _ w' i' => Took [.nt .stmts] w i w' i') := by
  unfold blockLoopBody
  refine sd_neither _ _ _ (fun u' _ => ?_) (fun u' _ hne => ?_)
  · sred
    exact sd_pure _ _ (.inr ⟨rfl, .flat (.strict .stmts_nil) (.refl _ _)⟩)
  · sred
    refine sd_seq_fin H.shrinks (H.call (.stmt .optional)) ?_
    intro _ w1 u1 n1 i1 h1
    refine sd_mono (H.call .blockLoop) ?_
    rintro _ s' (h | ⟨ho, h2⟩)
    · exact .inl h
    · exact .inr ⟨ho, .flat (.strict .stmts_cons) (Took.trans h1 h2)⟩

theorem sd_blockExprUnchecked (H : Meets c) : Sd c blockExprUnchecked ⟨w, u, n, i, o⟩
    (Ret o fun _ w' i' => TookNode .block w i w' i') := by
  unfold blockExprUnchecked
  rw [sd_at_eq]
  refine sd_assert _ _ _ fun _ => ?_
  sred
  refine sd_bump _ nofun ?_
  rintro t l1 l2 w1 u1 n1 rfl
  refine sd_seq_cut H.shrinks (H.call .blockLoop) (fun _ _ _ _ _ => sd_end_expect (k := .R_BRACE) nofun _) ?_
  intro _ w2 u2 n2 i2 h2
  refine sd_expect _ nofun ?_
  rintro t' l1' l2' w3 u3 n3 rfl
  rw [sd_complete']
  intro _
  exact ⟨rfl, .node (.strict .block) ((Took.tok t l1 l2 _ rfl).trans (h2.trans (.tok t' l1' l2' _ rfl)))⟩

theorem sd_blockExpr (H : Meets c) : Sd c blockExpr ⟨w, u, n, i, o⟩
    (Ret o fun _ w' i' => Took [.nt .block] w i w' i') := by
  unfold blockExpr
  refine sd_at _ (fun u' h => ?_) (fun u' h => ?_)
  · sred
    refine sd_seq H.shrinks (sd_blockExprUnchecked H) ?_
    intro _ w1 u1 n1 i1 h1
    exact sd_pure _ _ ⟨rfl, h1.took⟩
  · sred
    exact sd_error _ _ _

theorem sd_recordExprField (H : Meets c) : Sd c recordExprField ⟨w, u, n, i, o⟩
    (Fin o fun _ w' i' => Took [.nt .exprField] w i w' i') := by
  unfold recordExprField
  sred
  split
  · sred
    split
    · refine sd_seq H.shrinks (sd_nameRef H) ?_
      intro _ w1 u1 n1 i1 h1
      refine sd_expect _ nofun ?_
      rintro t l1 l2 w2 u2 n2 rfl
      sred
      refine sd_seq_fin H.shrinks (sd_expr H) ?_
      rintro _ w3 u3 n3 i3 ⟨_, h3⟩
      sred
      exact sd_pure _ _ (.inr ⟨rfl, .node (.strict .expr_field)
        (h1.nameRef.trans ((Took.tok t l1 l2 _ rfl).trans h3.took))⟩)
    · refine sd_seq_fin H.shrinks (sd_expr H) ?_
      rintro _ w3 u3 n3 i3 ⟨_, h3⟩
      sred
      exact sd_pure _ _ (.inr ⟨rfl, .node .field_expr h3.took⟩)
  · split
    · exact sd_errorBlock _ _
    · exact sd_errRecover _ _ _ _ H.shrinks

theorem sd_recordExprLoop (H : Meets c) : Sd c recordExprLoopBody ⟨w, u, n, i, o⟩
    (Fin o fun _ w' i' => TookList .exprFields .R_BRACE w i w' i') := by
  unfold recordExprLoopBody
  refine sd_neither _ _ _ (fun u' _ => ?_) (fun u' _ hne => ?_)
  · sred
    exact sd_pure _ _ (.inr ⟨rfl, .done (.strict .expr_fields_nil) _ _⟩)
  · sred
    refine sd_seq_fin H.shrinks (sd_recordExprField H) ?_
    intro _ w1 u1 n1 i1 h1
    refine sd_at _ (fun u' h => ?_) (fun u' h => ?_)
    · sred
      refine sd_mono (H.call .recordExprLoop) ?_
      rintro _ s' (h' | ⟨ho, _, h2⟩)
      · exact .inl h'
      · obtain ⟨e1, e2⟩ := h2 h
        exact .inr ⟨ho, .flat (.strict .expr_fields_one) (h1.trans (.of_same e1 e2)), fun h => absurd h hne⟩
    · sred
      refine sd_expect _ nofun ?_
      rintro t l1 l2 w2 u2 n2 rfl
      sred
      refine sd_mono (H.call .recordExprLoop) ?_
      rintro _ s' (h' | ⟨ho, h2, _⟩)
      · exact .inl h'
      · exact .inr ⟨ho, .flat (.strict .expr_fields_cons) (h1.trans (Took.trans (.tok t l1 l2 _ rfl) h2)),
          fun h => absurd h hne⟩

theorem sd_recordExprFieldList (H : Meets c) : Sd c recordExprFieldList ⟨w, u, n, i, o⟩
    (Ret o fun _ w' i' => Took [.nt .exprFieldList] w i w' i') := by
  unfold recordExprFieldList
  rw [sd_at_eq]
  refine sd_assert _ _ _ fun _ => ?_
  sred
  refine sd_bump _ nofun ?_
  rintro t l1 l2 w1 u1 n1 rfl
  refine sd_seq_cut H.shrinks (H.call .recordExprLoop) (fun _ _ _ _ _ => sd_end_expect (k := .R_BRACE) nofun _) ?_
  intro _ w2 u2 n2 i2 h2
  refine sd_expect _ nofun ?_
  rintro t' l1' l2' w3 u3 n3 rfl
  sred
  exact sd_pure _ _ ⟨rfl, .node (.strict .expr_field_list)
    ((Took.tok t l1 l2 _ rfl).trans (h2.1.trans (.tok t' l1' l2' _ rfl)))⟩

theorem sd_pathExpr (H : Meets c) : Sd c pathExpr ⟨w, u, n, i, o⟩
    (Ret o fun _ w' i' => TookNode .atom w i w' i') := by
  unfold pathExpr
  sred
  refine sd_assert _ _ _ fun h => ?_
  sred
  refine sd_seq H.shrinks (sd_path H (by simpa using h)) ?_
  intro _ w1 u1 n1 i1 h1
  sred
  split
  · refine sd_seq H.shrinks (sd_recordExprFieldList H) ?_
    intro _ w2 u2 n2 i2 h2
    rw [sd_complete']
    intro _
    exact ⟨rfl, .node (.strict .atom_record) (h1.1.took.trans h2)⟩
  · rw [sd_complete']
    intro _
    exact ⟨rfl, .node (.strict .atom_path) h1.1.took⟩

theorem sd_atomExpr (H : Meets c) : Sd c atomExpr ⟨w, u, n, i, o⟩
    (Fin o fun r w' i' => (∃ cm, r = some cm) ∧ TookNode .atom w i w' i') := by
  unfold atomExpr
  refine sd_seq H.shrinks (sd_literal H) ?_
  rintro r w1 u1 n1 i1 (⟨rfl, rfl, rfl⟩ | ⟨⟨cm, rfl⟩, h1⟩)
  · sred
    split
    · refine sd_seq H.shrinks (sd_pathExpr H) ?_
      intro cm w1 u1 n1 i1 h1
      exact sd_pure _ _ (.inr ⟨rfl, ⟨_, rfl⟩, h1⟩)
    · split
      · refine sd_seq_fin H.shrinks (sd_parenExpr H) ?_
        intro cm w1 u1 n1 i1 h1
        exact sd_pure _ _ (.inr ⟨rfl, ⟨_, rfl⟩, h1⟩)
      · split
        · refine sd_seq H.shrinks (sd_blockExprUnchecked H) ?_
          intro cm w1 u1 n1 i1 h1
          exact sd_pure _ _ (.inr ⟨rfl, ⟨_, rfl⟩, .flat (.strict .atom_block) h1⟩)
        · exact sd_errorAndSkipUntil _ _ _ _
  · exact sd_pure _ _ (.inr ⟨rfl, ⟨_, rfl⟩, h1⟩)

/-! ### Calls and fields -/

theorem sd_argLoop (H : Meets c) : Sd c argLoopBody ⟨w, u, n, i, o⟩
    (Fin o fun _ w' i' => TookList .args .R_PAREN w i w' i' ∧ kind0 w' = .R_PAREN) := by
  refine sd_coherent fun hw => ?_
  unfold argLoopBody
  refine sd_neither _ _ _ (fun u' h => ?_) (fun u' hne _ => ?_)
  · sred
    refine sd_pure _ _ ?_
    rcases h with h | h
    · exact .inr ⟨rfl, .done (.strict .args_nil) _ _, h⟩
    · exact .inl (Coherent.nil_of_eof hw h)
  · sred
    refine sd_seq_fin H.shrinks (sd_expr H) ?_
    rintro r w1 u1 n1 i1 ⟨hr, h1⟩
    rw [hr]
    sred
    refine sd_at _ (fun u' h => ?_) (fun u' h => ?_)
    · sred
      refine sd_mono (H.call .argLoop) ?_
      rintro _ s' (h' | ⟨ho, ⟨_, h2⟩, h3⟩)
      · exact .inl h'
      · obtain ⟨e1, e2⟩ := h2 h
        exact .inr ⟨ho, ⟨.flat (.strict .args_one) (h1.took.trans (.of_same e1 e2)), fun h => absurd h hne⟩, h3⟩
    · sred
      refine sd_expect _ nofun ?_
      rintro t l1 l2 w2 u2 n2 rfl
      sred
      refine sd_mono (H.call .argLoop) ?_
      rintro _ s' (h' | ⟨ho, ⟨h2, _⟩, h3⟩)
      · exact .inl h'
      · exact .inr ⟨ho, ⟨.flat (.strict .args_cons) (h1.took.trans (Took.trans (.tok t l1 l2 _ rfl) h2)),
          fun h => absurd h hne⟩, h3⟩

theorem sd_argList (H : Meets c) : Sd c argList ⟨w, u, n, i, o⟩
    (Fin o fun _ w' i' => Took [.nt .argList] w i w' i') := by
  unfold argList
  rw [sd_at_eq]
  refine sd_assert _ _ _ fun _ => ?_
  sred
  refine sd_bump _ nofun ?_
  rintro t l1 l2 w1 u1 n1 rfl
  refine sd_seq_fin H.shrinks (H.call .argLoop) ?_
  rintro _ w2 u2 n2 i2 ⟨h2, h3⟩
  refine sd_eat _ nofun ?_ fun _ h => absurd h3 h
  rintro t' l1' l2' w3 u3 n3 rfl
  sred
  exact sd_pure _ _ (.inr ⟨rfl, .node (.strict .arg_list)
    ((Took.tok t l1 l2 _ rfl).trans (h2.1.trans (.tok t' l1' l2' _ rfl)))⟩)

theorem sd_postfixLoop (H : Meets c) (lhs : Completed) {j pre kids : Forest} {k : Kind} :
    Sd c (postfixLoopBody lhs) ⟨w, u, n, .node j k pre kids, o⟩
      (Fin o fun _ w' i' => Grew .postfixed .postfixed w (.node j k pre kids) w' i') := by
  unfold postfixLoopBody
  sred
  split
  · unfold callExpr
    sred
    rw [sd_at_eq]
    refine sd_assert _ _ _ fun _ => ?_
    sred
    refine sd_seq_fin H.shrinks (sd_argList H) ?_
    intro _ w1 u1 n1 i1 h1
    sred
    refine sd_mono (H.call (.postfixLoop _)) ?_
    intro r s' h
    refine (h _ _ _ _ rfl).imp id fun h => ⟨h.1, ?_⟩
    exact (Grew.node (.strict .postfixed_call) (fun _ _ d => d) h1).trans h.2
  · split
    · unfold fieldExpr
      sred
      rw [sd_at_eq]
      refine sd_assert _ _ _ fun _ => ?_
      sred
      refine sd_bump _ nofun ?_
      rintro t l1 l2 w1 u1 n1 rfl
      refine sd_at _ (fun u' h => ?_) (fun u' h => ?_)
      · sred
        refine sd_seq H.shrinks (sd_nameRef H) ?_
        intro _ w2 u2 n2 i2 h2
        sred
        refine sd_mono (H.call (.postfixLoop _)) ?_
        intro r s' h
        refine (h _ _ _ _ rfl).imp id fun h => ⟨h.1, ?_⟩
        exact (Grew.node (.strict .postfixed_dot) (fun _ _ d => d)
          (Took.trans (.tok t l1 l2 _ rfl) h2.nameRef)).trans h.2
      · sred
        exact sd_error _ _ _
    · exact sd_pure _ _ (.inr ⟨rfl, .stay (fun _ _ d => d) _ _⟩)

/-! ### Operators -/

theorem sd_lhsExpr (H : Meets c) : Sd c lhsExpr ⟨w, u, n, i, o⟩
    (Fin o fun r w' i' => (∃ cm, r = some cm) ∧ TookNode .unary w i w' i') := by
  unfold lhsExpr
  sred
  split
  · rename_i h
    have key : ∀ k, kind0 w = k → k ≠ .EOF → k.isTrivia = false →
        Lenient .unary (some .PREFIX_EXPR) [.tok k, .nt .unary] → ∀ u n m,
        Sd c (bumpAny >>= fun _ => (call (.exprBp 255) : Prog (Option Completed)) >>= fun _ =>
          Marker.complete m .PREFIX_EXPR >>= fun x => pure (some x))
          ⟨w, u, n, .nil, (.nil, i) :: o⟩
          (Fin o fun r w' i' => (∃ cm, r = some cm) ∧ TookNode .unary w i w' i') := by
      intro k hk h1 h2 r u n m
      refine sd_bumpAny _ hk h1 ?_
      rintro t l1 l2 w1 u1 n1 rfl
      refine sd_seq_fin H.shrinks (sd_mono (H.call (.exprBp 255)) fun _ _ h => h (by decide)) ?_
      rintro _ w2 u2 n2 i2 ⟨_, h2', _⟩
      sred
      exact sd_pure _ _ (.inr ⟨rfl, ⟨_, rfl⟩, .node r (Took.trans (.tok t l1 l2 _ h2) h2'.took)⟩)
    simp only [Bool.or_eq_true, beq_iff_eq] at h
    rcases h with (h | h) | h
    · exact key _ h nofun rfl (.strict .unary_star) _ _ _
    · exact key _ h nofun rfl (.strict .unary_bang) _ _ _
    · exact key _ h nofun rfl (.strict .unary_minus) _ _ _
  · refine sd_seq_fin H.shrinks (sd_atomExpr H) ?_
    rintro _ w1 u1 n1 i1 ⟨⟨cm, rfl⟩, h1⟩
    obtain ⟨k, pre, kids, rfl⟩ := h1.exists
    refine sd_seq_fin H.shrinks (sd_mono (H.call (.postfixLoop cm)) fun _ _ h => h _ _ _ _ rfl) ?_
    intro r w2 u2 n2 i2 h2
    exact sd_pure _ _ (.inr ⟨rfl, ⟨_, rfl⟩,
      .flat (.strict .unary_postfixed) ((TookNode.flat (.strict .postfixed_atom) h1).grow h2)⟩)

theorem opTable_some (k : Kind) (h : 1 ≤ (opTable k).1) :
    (opTable k).2 = k ∧ (opTable k).1 ≤ 11 ∧ precedence k = some (opTable k).1 ∧ k ≠ .EOF ∧ k.isTrivia = false := by
  revert h
  cases k <;> decide

theorem nextOp_le (w : List Tok) : nextOp w ≤ 11 := by
  by_cases h : 1 ≤ nextOp w
  · exact (opTable_some _ h).2.1
  · omega

theorem sd_exprBpLoop (H : Meets c) (bp : Nat) (hbp : 1 ≤ bp) (lhs : Completed) {j pre kids : Forest} {k : Kind} :
    Sd c (exprBpLoopBody bp lhs) ⟨w, u, n, .node j k pre kids, o⟩ (Fin o fun _ w' i' =>
      (12 < bp → w' = w ∧ i' = .node j k pre kids) ∧
      (∀ q, bp ≤ q → q ≤ 12 → nextOp w ≤ q →
        Grew (.expr q) (.expr bp) w (.node j k pre kids) w' i') ∧ nextOp w' < bp) := by
  have hle := nextOp_le w
  have hsome := opTable_some (kind0 w)
  unfold nextOp at hle
  unfold exprBpLoopBody currentOp
  sred
  cases hop : opTable (kind0 w) with
  | mk p op =>
    rw [hop] at hle hsome
    simp only
    split
    · rename_i hlt
      refine sd_pure _ _ (.inr ⟨rfl, fun _ => ⟨rfl, rfl⟩, fun q h1 h2 _ => .stay (fun _ _ d => d.loosen h2 h1) _ _, ?_⟩)
      show (opTable (kind0 w)).1 < bp
      rw [hop]
      exact hlt
    · rename_i hlt
      obtain ⟨e1, e2, e3, e4, e5⟩ := hsome (by show 1 ≤ p; omega)
      have e1 : op = kind0 w := e1
      subst e1
      sred
      refine sd_bump _ e4 ?_
      intro t l1 l2 w1 u1 n1 ew
      refine sd_seq_fin H.shrinks (sd_mono (H.call (.exprBp (p + 1))) fun _ _ h => h (by omega)) ?_
      rintro _ w2 u2 n2 i2 ⟨_, h2, h3⟩
      sred
      refine sd_mono (H.call (.exprBpLoop bp _)) ?_
      intro r s' h
      refine (h hbp _ _ _ _ rfl).imp id fun h => ⟨h.1, fun h12 => by omega, fun q h1 hq hn => ?_, h.2.2.2⟩
      have hn' : p ≤ q := by
        have : (opTable (kind0 w)).1 ≤ q := hn
        rwa [hop] at this
      have hl : levelNT (p + 1) = .expr (p + 1) := by
        unfold levelNT
        rw [if_pos (by omega)]
      rw [hl] at h2
      have ht : ∀ wx, wx = ⟨kind0 w, t, l1, l2⟩ :: w1 → Took [.tok (kind0 w), .nt (.expr (p + 1))] wx .nil w2 i2 := by
        rintro _ rfl
        exact Took.trans (.tok t l1 l2 .nil e5) h2.took
      have hg : Grew (.expr q) (.expr p) w (.node j k pre kids) w2 _ :=
        Grew.node (.strict (.expr_bin e3)) (fun _ _ d => d.loosen hq hn') (ht w ew)
      exact hg.trans (h.2.2.1 p (by omega) (by omega) (by omega))

theorem sd_exprBp (H : Meets c) (bp : Nat) (hbp : 1 ≤ bp) : Sd c (exprBpBody bp) ⟨w, u, n, i, o⟩
    (Fin o fun r w' i' => r.isNone = false ∧ TookNode (levelNT bp) w i w' i' ∧ nextOp w' < bp) := by
  unfold exprBpBody
  refine sd_seq_fin H.shrinks (sd_lhsExpr H) ?_
  rintro _ w1 u1 n1 i1 ⟨⟨cm, rfl⟩, h1⟩
  obtain ⟨k, pre, kids, rfl⟩ := h1.exists
  refine sd_seq_fin H.shrinks (sd_mono (H.call (.exprBpLoop bp cm)) fun _ _ h => h hbp _ _ _ _ rfl) ?_
  rintro r w2 u2 n2 i2 ⟨h2, h3, h4⟩
  refine sd_pure _ _ (.inr ⟨rfl, rfl, ?_, h4⟩)
  unfold levelNT
  split
  · rename_i h12
    have := nextOp_le w1
    exact (TookNode.flat (.strict .expr_unary) h1).grow (h3 12 h12 (Nat.le_refl _) (by omega))
  · rename_i h12
    obtain ⟨e1, e2⟩ := h2 (by omega)
    rw [e1, e2]
    exact h1

/-! ### Statements -/

theorem sd_semi : Sd c (semi .optional) ⟨w, u, n, i, o⟩
    (Ret o fun _ w' i' => Took [.tok .SEMICOLON] w i w' i' ∨ (w' = w ∧ i' = i)) := by
  unfold semi
  refine sd_at _ (fun u' h => ?_) (fun u' h => ?_)
  · sred
    refine sd_eat _ nofun ?_ fun _ h' => absurd h h'
    rintro t l1 l2 w1 u1 n1 rfl
    exact sd_pure _ _ ⟨rfl, .inl (.tok t l1 l2 _ rfl)⟩
  · sred
    exact sd_pure _ _ ⟨rfl, .inr ⟨rfl, rfl⟩⟩

/-- The end of a statement. -/
theorem sd_stmtEnd (H : Meets c) (m : Marker) {k : Kind} {syms : List Sym} {w0 : List Tok}
    (r1 : Lenient .stmt (some k) (syms ++ [.tok .SEMICOLON])) (r2 : Lenient .stmt (some k) syms)
    (h : Took syms w0 .nil w i') :
    Sd c (do
      semi .optional
      let _ ← m.complete k
      pure ()) ⟨w, u, n, i', (.nil, i) :: o⟩ (Fin o fun _ w' i' => Took [.nt .stmt] w0 i w' i') := by
  refine sd_seq H.shrinks sd_semi ?_
  rintro _ w1 u1 n1 i1 (h1 | ⟨rfl, rfl⟩)
  · sred
    exact sd_pure _ _ (.inr ⟨rfl, .node r1 (h.trans h1)⟩)
  · sred
    exact sd_pure _ _ (.inr ⟨rfl, .node r2 h⟩)

theorem sd_letStmt (H : Meets c) (m : Marker) : Sd c (letStmt m .optional) ⟨w, u, n, .nil, (.nil, i) :: o⟩
    (Fin o fun _ w' i' => Took [.nt .stmt] w i w' i') := by
  unfold letStmt
  rw [sd_at_eq]
  refine sd_assert _ _ _ fun _ => ?_
  refine sd_bump _ nofun ?_
  rintro t l1 l2 w1 u1 n1 rfl
  refine sd_seq H.shrinks (H.call .pattern) ?_
  intro _ w2 u2 n2 i2 h2
  have h2 := Took.trans (.tok t l1 l2 .nil rfl) h2
  refine sd_at _ (fun u' h => ?_) (fun u' h => ?_)
  · sred
    refine sd_seq H.shrinks (sd_ascription H) ?_
    intro _ w3 u3 n3 i3 h3
    have h3 := h2.trans h3
    refine sd_eat _ nofun ?_ ?_
    · rintro t l1 l2 w4 u4 n4 rfl
      sred
      refine sd_seq_fin H.shrinks (sd_expr H) ?_
      rintro _ w5 u5 n5 i5 ⟨_, h5⟩
      exact sd_stmtEnd H m (.strict .stmt_let_both) .stmt_let_both
        (h3.trans (Took.trans (.tok t l1 l2 _ rfl) h5.took))
    · intro u4 _
      sred
      exact sd_stmtEnd H m (.strict .stmt_let_type) .stmt_let_type h3
  · sred
    refine sd_eat _ nofun ?_ ?_
    · rintro t l1 l2 w4 u4 n4 rfl
      sred
      refine sd_seq_fin H.shrinks (sd_expr H) ?_
      rintro _ w5 u5 n5 i5 ⟨_, h5⟩
      exact sd_stmtEnd H m (.strict .stmt_let_init) .stmt_let_init
        (h2.trans (Took.trans (.tok t l1 l2 _ rfl) h5.took))
    · intro u4 _
      sred
      exact sd_stmtEnd H m (.strict .stmt_let) .stmt_let h2

theorem sd_stmt (H : Meets c) : Sd c (stmtBody .optional) ⟨w, u, n, i, o⟩
    (Fin o fun _ w' i' => Took [.nt .stmt] w i w' i') := by
  unfold stmtBody
  sred
  refine sd_at _ (fun u' h => ?_) (fun u' h => ?_)
  · sred
    rw [show (do letStmt ⟨n⟩ .optional; pure ()) = letStmt ⟨n⟩ .optional from bind_pure_prog _]
    exact sd_letStmt H _
  · sred
    refine sd_seq_fin H.shrinks (sd_expr H) ?_
    rintro _ w1 u1 n1 i1 ⟨_, h1⟩
    exact sd_stmtEnd H _ (.strict .stmt_expr) .stmt_expr h1.took

end

end Verif.Parser
