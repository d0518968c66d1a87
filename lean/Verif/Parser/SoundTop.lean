import Verif.Parser.SoundExpr
import Verif.Parser.Fragment

set_option autoImplicit false

/-!
What the functions of the grammar for items and files have read when they return without an error;
a text about which the parser says nothing is a file of the lenient language.
-/

namespace Verif.Parser

open Language Lexer

section
variable {c : (f : Fn) → TState → Out TState f.Res} {α : Type} {w w' : List Tok} {u n : Nat}
  {i i' : Forest} {o : List (Forest × Forest)} {Q : α → TState → Prop}

/-! ### Items -/

theorem sd_functionDef (H : Meets c) (m : Marker) : Sd c (functionDef m) ⟨w, u, n, .nil, (.nil, i) :: o⟩
    (Ret o fun _ w' i' => Took [.nt .funDef] w i w' i') := by
  unfold functionDef
  rw [sd_at_eq]
  refine sd_assert _ _ _ fun _ => ?_
  refine sd_bump _ nofun ?_
  rintro t l1 l2 w1 u1 n1 rfl
  refine sd_seq H.shrinks (sd_nameR H _) ?_
  intro _ w2 u2 n2 i2 h2
  refine sd_at _ (fun u' h => ?_) (fun u' h => ?_)
  · sred
    refine sd_seq H.shrinks (sd_paramList H) ?_
    intro _ w3 u3 n3 i3 h3
    have h3 := Took.trans (.tok t l1 l2 .nil rfl) (h2.trans h3)
    unfold optRetType
    sred
    refine sd_at _ (fun u' h => ?_) (fun u' h => ?_)
    · sred
      refine sd_bump _ nofun ?_
      rintro t' l1' l2' w4 u4 n4 rfl
      refine sd_seq H.shrinks (H.call .type_) ?_
      intro _ w5 u5 n5 i5 h5
      sred
      refine sd_seq H.shrinks (sd_blockExpr H) ?_
      intro _ w6 u6 n6 i6 h6
      sred
      have h5 : Took [.nt .ret] _ i3 _ _ := .node (.strict .ret) (Took.trans (.tok t' l1' l2' .nil rfl) h5)
      exact sd_pure _ _ ⟨rfl, .node (.strict .fun_ret) (h3.trans (h5.trans h6))⟩
    · sred
      refine sd_seq H.shrinks (sd_blockExpr H) ?_
      intro _ w6 u6 n6 i6 h6
      sred
      exact sd_pure _ _ ⟨rfl, .node (.strict .fun_unit) (h3.trans h6)⟩
  · sred
    exact sd_error _ _ _

/-- An item was read. -/
def TookItem (w : List Tok) (i : Forest) (w' : List Tok) (i' : Forest) : Prop :=
  Took [.nt .funDef] w i w' i' ∨ Took [.nt .structDef] w i w' i'

theorem sd_item (H : Meets c) : Sd c item ⟨w, u, n, i, o⟩
    (Ret o fun _ w' i' => TookItem w i w' i') := by
  have opt : ∀ m u n, Sd c (optItem m) ⟨w, u, n, .nil, (.nil, i) :: o⟩
      (Ret o fun _ w' i' => TookItem w i w' i') := by
    intro m u n
    unfold optItem
    sred
    split
    · exact sd_mono (sd_functionDef H m) fun _ _ h => ⟨h.1, .inl h.2⟩
    · split
      · exact sd_mono (sd_structDef H m) fun _ _ h => ⟨h.1, .inr h.2⟩
      · exact sd_error _ _ _
  unfold item
  sred
  refine sd_seq H.shrinks (opt _ _ _) ?_
  intro _ w1 u1 n1 i1 h1
  refine sd_at _ (fun u' h => ?_) (fun u' h => ?_)
  · sred
    exact sd_errRecover' _ _ _ H.shrinks
  · sred
    exact sd_pure _ _ ⟨rfl, h1⟩

theorem sd_itemLoop (H : Meets c) : Sd c itemLoopBody ⟨w, u, n, i, o⟩
    (Ret o fun _ w' i' => Took [.nt .items] w i w' i') := by
  unfold itemLoopBody
  refine sd_neither _ _ _ (fun u' _ => ?_) (fun u' _ hne => ?_)
  · sred
    exact sd_pure _ _ ⟨rfl, .flat (.strict .items_nil) (.refl _ _)⟩
  · sred
    refine sd_seq H.shrinks (sd_item H) ?_
    intro _ w1 u1 n1 i1 h1
    refine sd_mono (H.call .itemLoop) ?_
    rintro _ s' ⟨ho, h2⟩
    rcases h1 with h1 | h1
    · exact ⟨ho, .flat (.strict .items_fun) (h1.trans h2)⟩
    · exact ⟨ho, .flat (.strict .items_struct) (h1.trans h2)⟩

theorem sd_itemList (H : Meets c) : Sd c itemList ⟨w, u, n, i, o⟩
    (Ret o fun _ w' i' => Took [.nt .itemBody] w i w' i') := by
  unfold itemList
  rw [sd_at_eq]
  refine sd_assert _ _ _ fun _ => ?_
  sred
  refine sd_bump _ nofun ?_
  rintro t l1 l2 w1 u1 n1 rfl
  refine sd_seq H.shrinks (H.call .itemLoop) ?_
  intro _ w2 u2 n2 i2 h2
  refine sd_expect _ nofun ?_
  rintro t' l1' l2' w3 u3 n3 rfl
  sred
  exact sd_pure _ _ ⟨rfl, .node (.strict .item_body)
    ((Took.tok t l1 l2 _ rfl).trans (h2.trans (.tok t' l1' l2' _ rfl)))⟩

theorem sd_itemListOrSemi (H : Meets c) : Sd c itemListOrSemi ⟨w, u, n, i, o⟩
    (Ret o fun _ w' i' => Took [.nt .itemBody] w i w' i' ∨ Took [.tok .SEMICOLON] w i w' i') := by
  unfold itemListOrSemi
  refine sd_at _ (fun u' h => ?_) (fun u' h => ?_)
  · sred
    exact sd_mono (sd_itemList H) fun _ _ h => ⟨h.1, .inl h.2⟩
  · sred
    refine sd_eat _ nofun ?_ ?_
    · rintro t l1 l2 w1 u1 n1 rfl
      sred
      exact sd_pure _ _ ⟨rfl, .inr (.tok t l1 l2 _ rfl)⟩
    · intro u1 _
      sred
      exact sd_error' _ _

/-! ### Modules, scripts and addresses -/

theorem sd_addressIdentR (H : Meets c) (ts : TokenSet) : Sd c (addressIdentR ts) ⟨w, u, n, i, o⟩
    (Ret o fun _ w' i' => Took [.nt .address] w i w' i') := by
  unfold addressIdentR
  sred
  refine sd_seq H.shrinks sd_bumpAddress ?_
  intro r w1 u1 n1 i1 h1
  cases r with
  | false => sred; exact sd_errorAndSkipUntil _ _ _ _
  | true =>
    sred
    rcases h1 rfl with h1 | h1
    · exact sd_pure _ _ ⟨rfl, .node (.strict .address_name) h1⟩
    · exact sd_pure _ _ ⟨rfl, .node (.strict .address_hex) h1⟩

theorem sd_moduleDef (H : Meets c) : Sd c moduleDef ⟨w, u, n, i, o⟩
    (Ret o fun _ w' i' => Took [.nt .moduleDef] w i w' i') := by
  unfold moduleDef
  sred
  rw [sd_at_eq]
  refine sd_assert _ _ _ fun _ => ?_
  refine sd_bump _ nofun ?_
  rintro t l1 l2 w1 u1 n1 rfl
  have h0 := Took.tok (w := w1) t l1 l2 .nil (k := .MODULE_KW) rfl
  sred
  split
  · refine sd_seq H.shrinks (sd_addressIdentR H _) ?_
    intro _ w2 u2 n2 i2 h2
    refine sd_bump _ nofun ?_
    rintro t' l1' l2' w3 u3 n3 rfl
    refine sd_seq H.shrinks (sd_name H) ?_
    intro _ w4 u4 n4 i4 h4
    have h4 := h0.trans (h2.trans (Took.trans (.tok t' l1' l2' _ rfl) h4))
    refine sd_seq H.shrinks (sd_itemListOrSemi H) ?_
    rintro _ w5 u5 n5 i5 (h5 | h5)
    · sred
      exact sd_pure _ _ ⟨rfl, .node (.strict .module_at) (h4.trans h5)⟩
    · sred
      exact sd_pure _ _ ⟨rfl, .node .module_at_semi (h4.trans h5)⟩
  · refine sd_seq H.shrinks (sd_name H) ?_
    intro _ w4 u4 n4 i4 h4
    have h4 := h0.trans h4
    refine sd_seq H.shrinks (sd_itemListOrSemi H) ?_
    rintro _ w5 u5 n5 i5 (h5 | h5)
    · sred
      exact sd_pure _ _ ⟨rfl, .node (.strict .module_plain) (h4.trans h5)⟩
    · sred
      exact sd_pure _ _ ⟨rfl, .node .module_semi (h4.trans h5)⟩

theorem sd_addressItemLoop (H : Meets c) : Sd c addressItemLoopBody ⟨w, u, n, i, o⟩
    (Ret o fun _ w' i' => Took [.nt .modules] w i w' i') := by
  unfold addressItemLoopBody
  refine sd_neither _ _ _ (fun u' _ => ?_) (fun u' _ hne => ?_)
  · sred
    exact sd_pure _ _ ⟨rfl, .flat (.strict .modules_nil) (.refl _ _)⟩
  · sred
    refine sd_seq H.shrinks (sd_moduleDef H) ?_
    intro _ w1 u1 n1 i1 h1
    refine sd_mono (H.call .addressItemLoop) ?_
    rintro _ s' ⟨ho, h2⟩
    exact ⟨ho, .flat (.strict .modules_cons) (h1.trans h2)⟩

theorem sd_addressItemList (H : Meets c) : Sd c addressItemList ⟨w, u, n, i, o⟩
    (Ret o fun _ w' i' => Took [.nt .moduleList] w i w' i') := by
  unfold addressItemList
  rw [sd_at_eq]
  refine sd_assert _ _ _ fun _ => ?_
  sred
  refine sd_bump _ nofun ?_
  rintro t l1 l2 w1 u1 n1 rfl
  refine sd_seq H.shrinks (H.call .addressItemLoop) ?_
  intro _ w2 u2 n2 i2 h2
  refine sd_expect _ nofun ?_
  rintro t' l1' l2' w3 u3 n3 rfl
  sred
  exact sd_pure _ _ ⟨rfl, .node (.strict .module_list)
    ((Took.tok t l1 l2 _ rfl).trans (h2.trans (.tok t' l1' l2' _ rfl)))⟩

theorem sd_addressDef (H : Meets c) : Sd c addressDef ⟨w, u, n, i, o⟩
    (Ret o fun _ w' i' => Took [.nt .addressDef] w i w' i') := by
  unfold addressDef
  sred
  refine sd_eat _ nofun ?_ fun u1 _ => sd_assert _ _ _ nofun
  rintro t l1 l2 w1 u1 n1 rfl
  refine sd_assert _ _ _ fun _ => ?_
  refine sd_seq H.shrinks (sd_addressIdentR H _) ?_
  intro _ w2 u2 n2 i2 h2
  refine sd_at _ (fun u' h => ?_) (fun u' h => ?_)
  · sred
    refine sd_seq H.shrinks (sd_addressItemList H) ?_
    intro _ w3 u3 n3 i3 h3
    sred
    exact sd_pure _ _ ⟨rfl, .node (.strict .address_block) (Took.trans (.tok t l1 l2 _ rfl) (h2.trans h3))⟩
  · sred
    exact sd_error _ _ _

theorem sd_scriptDef (H : Meets c) : Sd c scriptDef ⟨w, u, n, i, o⟩
    (Ret o fun _ w' i' => Took [.nt .scriptDef] w i w' i') := by
  unfold scriptDef
  sred
  refine sd_eat _ nofun ?_ fun u1 _ => sd_assert _ _ _ nofun
  rintro t l1 l2 w1 u1 n1 rfl
  refine sd_assert _ _ _ fun _ => ?_
  refine sd_seq H.shrinks (sd_itemListOrSemi H) ?_
  rintro _ w2 u2 n2 i2 (h2 | h2)
  · sred
    exact sd_pure _ _ ⟨rfl, .node (.strict .script) (Took.trans (.tok t l1 l2 _ rfl) h2)⟩
  · sred
    exact sd_pure _ _ ⟨rfl, .node .script_semi (Took.trans (.tok t l1 l2 _ rfl) h2)⟩

theorem sd_rootLoop (H : Meets c) : Sd c rootLoopBody ⟨w, u, n, i, o⟩
    (Ret o fun _ w' i' => Took [.nt .file] w i w' i') := by
  refine sd_coherent fun hw => ?_
  unfold rootLoopBody
  refine sd_at _ (fun u' _ => ?_) (fun u' hne => ?_)
  · sred
    exact sd_pure _ _ ⟨rfl, .flat (.strict .file_nil) (.refl _ _)⟩
  · sred
    refine sd_at _ (fun u' _ => ?_) (fun u' _ => ?_)
    · sred
      refine sd_seq H.shrinks (sd_moduleDef H) ?_
      intro _ w1 u1 n1 i1 h1
      exact sd_mono (H.call .rootLoop) fun _ _ h => ⟨h.1, .flat (.strict .file_module) (h1.trans h.2)⟩
    · sred
      refine sd_at _ (fun u' _ => ?_) (fun u' _ => ?_)
      · sred
        refine sd_seq H.shrinks (sd_scriptDef H) ?_
        intro _ w1 u1 n1 i1 h1
        exact sd_mono (H.call .rootLoop) fun _ _ h => ⟨h.1, .flat (.strict .file_script) (h1.trans h.2)⟩
      · sred
        refine sd_at _ (fun u' _ => ?_) (fun u' _ => ?_)
        · sred
          refine sd_seq H.shrinks (sd_addressDef H) ?_
          intro _ w1 u1 n1 i1 h1
          exact sd_mono (H.call .rootLoop) fun _ _ h => ⟨h.1, .flat (.strict .file_address) (h1.trans h.2)⟩
        · sred
          have : (kind0 w).isTrivia = false := by
            cases w with
            | nil => exact absurd rfl hne
            | cons t w => exact hw.1.2.2
          rw [this]
          sred
          exact sd_error _ _ _

end

/-! ### All functions -/

theorem meets (n : Nat) : Meets (callN strictTok body n) := by
  induction n with
  | zero => exact ⟨callN_shrinks 0, fun f s r s' _ e => by cases e⟩
  | succ n H =>
    refine ⟨callN_shrinks (n + 1), ?_⟩
    rintro f ⟨w, u, m, i, o⟩ r s' hw e
    have e : run strictTok (callN strictTok body n) (body f) ⟨w, u, m, i, o⟩ = .ok r s' := e
    show SpecQ f w i o r s'
    cases f with
    | skipUntil ts => trivial
    | rootLoop => exact sd_rootLoop H hw r s' e
    | addressItemLoop => exact sd_addressItemLoop H hw r s' e
    | itemLoop => exact sd_itemLoop H hw r s' e
    | recordFieldLoop => exact sd_recordFieldLoop H hw r s' e
    | paramLoop => exact sd_paramLoop H hw r s' e
    | type_ => exact sd_type H hw r s' e
    | pathLoop qual =>
      rintro j k pre kids rfl
      exact sd_pathLoop H qual hw r s' e
    | genericParamLoop => exact sd_genericParamLoop H hw r s' e
    | boundsLoop => exact sd_boundsLoop H hw r s' e
    | pattern => exact sd_pattern H hw r s' e
    | tuplePatLoop a b d => exact sd_tuplePatLoop H a b d hw r s' e
    | recordPatLoop => exact sd_recordPatLoop H hw r s' e
    | blockLoop => exact sd_blockLoop H hw r s' e
    | exprBlockLoop => trivial
    | stmt ws =>
      cases ws with
      | optional => exact sd_stmt H hw r s' e
      | yes => trivial
      | no => trivial
    | exprBp bp => exact fun hbp => sd_exprBp H bp hbp hw r s' e
    | exprBpLoop bp lhs =>
      rintro hbp j k pre kids rfl
      exact sd_exprBpLoop H bp hbp lhs hw r s' e
    | postfixLoop lhs =>
      rintro j k pre kids rfl
      exact sd_postfixLoop H lhs hw r s' e
    | argLoop => exact sd_argLoop H hw r s' e
    | recordExprLoop => exact sd_recordExprLoop H hw r s' e
    | parenLoop => exact sd_parenLoop H hw r s' e

/-! ### The whole file -/

theorem coherent_annotSig {ts : List (Kind × Text)} (h : ∀ x ∈ ts, isTokenKind x.1 = true) :
    Coherent (annotSig ts) := by
  induction ts with
  | nil => trivial
  | cons x ts ih =>
    have ih := ih fun y hy => h y (List.mem_cons_of_mem _ hy)
    have hx := h x List.mem_cons_self
    unfold annotSig
    cases ht : x.1.isTrivia with
    | true => simpa using ih
    | false =>
      simp only [Bool.false_eq_true, if_false]
      refine ⟨⟨?_, ?_, ht⟩, ?_, ih⟩
      · show x.1 ≠ .EOF
        intro e; rw [e] at hx; cases hx
      · show x.1 ≠ .WILDCARD
        intro e; rw [e] at hx; cases hx
      · intro hc
        rw [kind0_annotSig]
        refine skip_of_whitespace ts fun he => hc ?_
        show headKind (ts.dropWhile (·.1 == .WHITESPACE)) = .COMMENT
        generalize ts.dropWhile (·.1 == .WHITESPACE) = l at he
        cases l with
        | nil => cases he
        | cons y l => show y.1 = _; simpa using he

theorem rootLoop_trivia {x : Kind × Text} {ts : List (Kind × Text)} (hx : x.1.isTrivia = true)
    (c : (f : Fn) → TState → Out TState f.Res) (m : Nat) (o : List (Forest × Forest)) :
    ∃ u, run strictTok c rootLoopBody ⟨annot (x :: ts), 0, m, .nil, o⟩ =
      (c .rootLoop ⟨annotSig ts, u, m + 1, .tok .nil x.1, o⟩).bind fun r s => .ok r s := by
  obtain ⟨k, t⟩ := x
  have : k = .WHITESPACE ∨ k = .COMMENT := by simpa [Kind.isTrivia] using hx
  rcases this with rfl | rfl
  · exact ⟨_, rfl⟩
  · exact ⟨_, rfl⟩

theorem rootLoop_reads {ts : List (Kind × Text)} (h : ∀ x ∈ ts, isTokenKind x.1 = true) (n m : Nat)
    (o : List (Forest × Forest)) {r : Unit} {s' : TState}
    (e : callN strictTok body n .rootLoop ⟨annot ts, 0, m, .nil, o⟩ = .ok r s') :
    Ret o (fun _ w' i' => Took [.nt .file] (annotSig ts) .nil w' i') r s' := by
  cases ts with
  | nil => exact (meets n).spec .rootLoop ⟨[], 0, m, .nil, o⟩ r s' trivial e
  | cons x ts =>
    cases ht : x.1.isTrivia with
    | false =>
      have ha : annotSig (x :: ts) = annot (x :: ts) := by simp [annotSig, annot, ht]
      have hc := coherent_annotSig h
      rw [ha] at hc ⊢
      exact (meets n).spec .rootLoop _ r s' hc e
    | true =>
      have ha : annotSig (x :: ts) = annotSig ts := by simp [annotSig, ht]
      rw [ha]
      cases n with
      | zero => cases e
      | succ n =>
        obtain ⟨u, hu⟩ := rootLoop_trivia ht (callN strictTok body n) m o (ts := ts)
        have e : run strictTok (callN strictTok body n) rootLoopBody ⟨annot (x :: ts), 0, m, .nil, o⟩ = .ok r s' := e
        rw [hu] at e
        cases hcall : callN strictTok body n .rootLoop ⟨annotSig ts, u, m + 1, .tok .nil x.1, o⟩ with
        | ok r1 s1 =>
          rw [hcall] at e
          cases e
          have := (meets n).spec .rootLoop _ _ _
            (coherent_annotSig fun y hy => h y (List.mem_cons_of_mem _ hy)) hcall
          obtain ⟨ho, v, sh, e1, d, e2⟩ := this
          refine ⟨ho, v, sh, e1, d, ?_⟩
          rw [e2]
          simp [Forest.shape, ht]
        | panic p => rw [hcall] at e; cases e
        | outOfFuel => rw [hcall] at e; cases e

/-- **A text without syntax errors is a file.**  If the parser reports no error, the significant
tokens of the text are a file of the lenient language, and the tree is the one the grammar gives
it. -/
theorem accepted_is_lenient {text : Text} {kind : Kind} {tree : Green}
    (hp : parse text = .ok kind tree []) :
    ∃ ts, Lexes text ts ∧ DerivesBy Lenient [.nt .file] (significant ts) tree.shapes := by
  obtain ⟨_, ts, hl, _⟩ := parse_ok hp
  refine ⟨ts, hl, ?_⟩
  obtain ⟨n, w, u, m, kids, hrun, heof, hsh⟩ := clean_run hl hp
  have hk : ∀ x ∈ ts, isTokenKind x.1 = true := fun x hx => (Steps.kinds hl x hx).1
  have hrun : ((callN strictTok body n .rootLoop ⟨annot ts, 0, 1, .nil, [(.nil, .nil)]⟩).bind fun _ s =>
      (tComplete ⟨0⟩ .SOURCE_FILE s).bind fun _ s => .ok () s) =
      .ok () ⟨w, u, m, .node .nil .SOURCE_FILE .nil kids, []⟩ := hrun
  cases hcall : callN strictTok body n .rootLoop ⟨annot ts, 0, 1, .nil, [(.nil, .nil)]⟩ with
  | ok r s1 =>
    rw [hcall] at hrun
    obtain ⟨w1, u1, m1, i1, o1⟩ := s1
    obtain ⟨ho, v, sh, e1, d, e2⟩ := rootLoop_reads hk n 1 _ hcall
    cases ho
    cases hrun
    have hc := coherent_annotSig hk
    have e1 : annotSig ts = v ++ w1 := e1
    rw [e1] at hc
    have hw := Coherent.nil_of_eof hc.append heof
    subst hw
    rw [List.append_nil] at e1
    have e2 : i1.shape = [] ++ sh := e2
    rw [hsh, e2, List.nil_append, ← annotSig_pair, e1]
    exact d
  | panic p => rw [hcall] at hrun; cases hrun
  | outOfFuel => rw [hcall] at hrun; cases hrun

end Verif.Parser
