import Verif.Parser.Sound

set_option autoImplicit false

/-!
What each loop and each recursive function of the grammar has read when it returns without an
error.
-/

namespace Verif.Parser

open Language Lexer

/-- The shape of a node. -/
abbrev nodeOf (k : Kind) (pre kids : Forest) : Shape := .node k (pre.shape ++ kids.shape)

/-- A list was read, and nothing if `close` is next. -/
def TookList (x : NT) (close : Kind) (w : List Tok) (i : Forest) (w' : List Tok) (i' : Forest) : Prop :=
  Took [.nt x] w i w' i' ∧ (kind0 w = close → w' = w ∧ i'.shape = i.shape)

/-- One node was added, which has read an instance of `x`. -/
def TookNode (x : NT) (w : List Tok) (i : Forest) (w' : List Tok) (i' : Forest) : Prop :=
  ∃ k pre kids v, i' = .node i k pre kids ∧ w = v ++ w' ∧ Der [.nt x] v [nodeOf k pre kids]

/-- The last node has grown: if it was an instance of `x`, it is one of `y` now. -/
def Grew (x y : NT) (w : List Tok) (i : Forest) (w' : List Tok) (i' : Forest) : Prop :=
  ∀ j k pre kids, i = .node j k pre kids → ∃ k' pre' kids' v, i' = .node j k' pre' kids' ∧ w = v ++ w' ∧
    ∀ v0, Der [.nt x] v0 [nodeOf k pre kids] → Der [.nt y] (v0 ++ v) [nodeOf k' pre' kids']

theorem TookNode.took {x : NT} {w w' : List Tok} {i i' : Forest} (h : TookNode x w i w' i') :
    Took [.nt x] w i w' i' := by
  obtain ⟨k, pre, kids, v, rfl, e, d⟩ := h
  exact ⟨v, _, e, d, rfl⟩

/-- What an expression that starts at level `bp` is. -/
def levelNT (bp : Nat) : NT := if bp ≤ 12 then .expr bp else .unary

/-- The level of the binary operator that comes next, 0 if there is none. -/
abbrev nextOp (w : List Tok) : Nat := (opTable (kind0 w)).1

/-- The result of the functions, see above.  `skipUntil` and `exprBlockLoop` are called after an
error only. -/
def SpecQ : (f : Fn) → List Tok → Forest → List (Forest × Forest) → f.Res → TState → Prop
  | .skipUntil _, _, _, _ => fun _ _ => True
  | .exprBlockLoop, _, _, _ => fun _ _ => True
  | .rootLoop, w, i, o => Ret o fun _ w' i' => Took [.nt .file] w i w' i'
  | .addressItemLoop, w, i, o => Ret o fun _ w' i' => Took [.nt .modules] w i w' i'
  | .itemLoop, w, i, o => Ret o fun _ w' i' => Took [.nt .items] w i w' i'
  | .recordFieldLoop, w, i, o => Ret o fun _ w' i' => TookList .fields .R_BRACE w i w' i'
  | .paramLoop, w, i, o => Ret o fun _ w' i' => TookList .params .R_PAREN w i w' i'
  | .type_, w, i, o => Ret o fun _ w' i' => Took [.nt .type] w i w' i'
  | .pathLoop _, w, i, o => fun r s => ∀ j k pre kids, i = .node j k pre kids →
      Ret o (fun _ w' i' => Grew .path .path w i w' i' ∧ (kind0 w ≠ .COLON_COLON → w' = w ∧ i' = i)) r s
  | .genericParamLoop, w, i, o => Ret o fun _ w' i' => TookList .generics .GT w i w' i'
  | .boundsLoop, w, i, o => Ret o fun _ w' i' => Took [.nt .bounds] w i w' i'
  | .pattern, w, i, o => Ret o fun _ w' i' => Took [.nt .pattern] w i w' i'
  | .tuplePatLoop a b d, w, i, o => Ret o fun r w' i' =>
      (r = (a, b, d) ∧ w' = w ∧ i'.shape = i.shape) ∨
      (kind0 w ≠ .R_PAREN ∧ r = (a, true, d) ∧ Took [.nt .pattern] w i w' i') ∨
      (kind0 w ≠ .R_PAREN ∧ r = (true, true, d) ∧ Took [.nt .pattern, .tok .COMMA, .nt .pats] w i w' i')
  | .recordPatLoop, w, i, o => Ret o fun _ w' i' => TookList .patFields .R_BRACE w i w' i'
  | .blockLoop, w, i, o => Fin o fun _ w' i' => Took [.nt .stmts] w i w' i'
  | .stmt .optional, w, i, o => Fin o fun _ w' i' => Took [.nt .stmt] w i w' i'
  | .stmt _, _, _, _ => fun _ _ => True
  | .exprBp bp, w, i, o => fun r s => 1 ≤ bp → Fin o (fun r w' i' =>
      r.isNone = false ∧ TookNode (levelNT bp) w i w' i' ∧ nextOp w' < bp) r s
  | .exprBpLoop bp _, w, i, o => fun r s => 1 ≤ bp → ∀ j k pre kids, i = .node j k pre kids →
      Fin o (fun _ w' i' => (12 < bp → w' = w ∧ i' = i) ∧
        (∀ q, bp ≤ q → q ≤ 12 → nextOp w ≤ q → Grew (.expr q) (.expr bp) w i w' i') ∧ nextOp w' < bp) r s
  | .postfixLoop _, w, i, o => fun r s => ∀ j k pre kids, i = .node j k pre kids →
      Fin o (fun _ w' i' => Grew .postfixed .postfixed w i w' i') r s
  | .argLoop, w, i, o => Fin o fun _ w' i' => TookList .args .R_PAREN w i w' i' ∧ kind0 w' = .R_PAREN
  | .recordExprLoop, w, i, o => Fin o fun _ w' i' => TookList .exprFields .R_BRACE w i w' i'
  | .parenLoop, w, i, o => Fin o fun r w' i' => r = true ∧ ∃ m, Took (List.replicate m (.nt (.expr 1))) w i w' i'

/-- The functions called do what they should. -/
structure Meets (c : (f : Fn) → TState → Out TState f.Res) : Prop where
  shrinks : Shrinks c
  spec : ∀ f s r s', Coherent s.toks → c f s = .ok r s' → SpecQ f s.toks s.items s.outer r s'

section
variable {c : (f : Fn) → TState → Out TState f.Res} {α : Type} {w w' : List Tok} {u n : Nat}
  {i i' : Forest} {o : List (Forest × Forest)} {Q : α → TState → Prop}

theorem Meets.call (H : Meets c) (f : Fn) : Sd c (call f) ⟨w, u, n, i, o⟩ (SpecQ f w i o) :=
  sd_call fun hw r s' e => H.spec f _ r s' hw e

/-- Reduces the program of a goal as far as the operations determine it. -/
macro "sred" : tactic =>
  `(tactic| try simp only [bind_assoc_prog, pure_bind_prog, sd_start, sd_complete, sd_current, sd_nthAt1,
    sd_nth1, sd_nth2, sd_isPathStart, sd_atTs, sd_currentText, sd_precede, if_true, if_false,
    Bool.false_eq_true, Bool.not_true, Bool.not_false, Bool.true_eq_false])

/-! ### Names and paths -/

theorem sd_nameR (H : Meets c) (ts : TokenSet) : Sd c (nameR ts) ⟨w, u, n, i, o⟩
    (Ret o fun _ w' i' => Took [.nt .name] w i w' i') := by
  unfold nameR
  refine sd_at _ (fun u' h => ?_) (fun u' h => ?_)
  · sred
    refine sd_bump _ nofun ?_
    rintro t l1 l2 w' u n rfl
    sred
    exact sd_pure _ _ ⟨rfl, .node (.strict .name) (.tok t l1 l2 _ rfl)⟩
  · sred
    exact sd_errRecover' _ _ _ H.shrinks

theorem sd_name (H : Meets c) : Sd c name ⟨w, u, n, i, o⟩
    (Ret o fun _ w' i' => Took [.nt .name] w i w' i') := sd_nameR H _

/-- One identifier was read. -/
def TookIdent (node : Forest → Forest) (w : List Tok) (i : Forest) (w' : List Tok) (i' : Forest) : Prop :=
  ∃ t l1 l2, w = ⟨.IDENT, t, l1, l2⟩ :: w' ∧ i' = node i

def refNode (i : Forest) : Forest := .node i .NAME_REF .nil (.tok .nil .IDENT)
def segmentNode (i : Forest) : Forest := .node i .PATH_SEGMENT .nil (refNode .nil)

theorem TookIdent.nameRef (h : TookIdent refNode w i w' i') : Took [.nt .nameRef] w i w' i' := by
  obtain ⟨t, l1, l2, rfl, rfl⟩ := h
  exact .node (.strict .name_ref) (.tok t l1 l2 _ rfl)

theorem TookIdent.segment (h : TookIdent segmentNode w i w' i') : Took [.nt .segment] w i w' i' := by
  obtain ⟨t, l1, l2, rfl, rfl⟩ := h
  exact .node (.strict .segment) (TookIdent.nameRef ⟨t, l1, l2, rfl, rfl⟩)

theorem sd_nameRef (H : Meets c) : Sd c nameRef ⟨w, u, n, i, o⟩
    (Ret o fun _ w' i' => TookIdent refNode w i w' i') := by
  unfold nameRef
  refine sd_at _ (fun u' h => ?_) (fun u' h => ?_)
  · sred
    refine sd_bump _ nofun ?_
    rintro t l1 l2 w' u n rfl
    sred
    exact sd_pure _ _ ⟨rfl, t, l1, l2, rfl, rfl⟩
  · sred
    exact sd_errRecover' _ _ _ H.shrinks

theorem sd_pathSegment (H : Meets c) (first : Bool) (hf : first = true → kind0 w = .IDENT) :
    Sd c (pathSegment first) ⟨w, u, n, i, o⟩ (Ret o fun _ w' i' => TookIdent segmentNode w i w' i') := by
  have key : ∀ (q : Prog Unit) (m : Marker) u n, Sd c (if (kind0 w == .IDENT) = true then do
        nameRef
        let _ ← m.complete .PATH_SEGMENT
        pure ()
      else do
        errRecover "expected identifier" ITEM_RECOVERY_SET
        q) ⟨w, u, n, .nil, (.nil, i) :: o⟩
      (Ret o fun _ w' i' => TookIdent segmentNode w i w' i') := by
    intro q m u n
    split
    · refine sd_seq H.shrinks (sd_nameRef H) ?_
      rintro _ w1 u1 n1 i1 ⟨t, l1, l2, rfl, rfl⟩
      sred
      exact sd_pure _ _ ⟨rfl, t, l1, l2, rfl, rfl⟩
    · exact sd_errRecover _ _ _ _ H.shrinks
  unfold pathSegment
  sred
  cases first with
  | true =>
    sred
    rw [sd_eat_no _ (by rw [hf rfl]; nofun)]
    sred
    exact key _ _ _ _
  | false =>
    sred
    exact key _ _ _ _

/-- A path was read, which is a single name if no `::` follows the first one. -/
def TookPath (w : List Tok) (i : Forest) (w' : List Tok) (i' : Forest) : Prop :=
  TookNode .path w i w' i' ∧ ∀ t w1, w = t :: w1 → kind0 w1 ≠ .COLON_COLON → w' = w1 ∧ Took [.nt .onePath] w i w' i'

theorem sd_path (H : Meets c) (hw : kind0 w = .IDENT) : Sd c path ⟨w, u, n, i, o⟩
    (Ret o fun _ w' i' => TookPath w i w' i') := by
  unfold path
  sred
  refine sd_seq H.shrinks (sd_pathSegment H true fun _ => hw) ?_
  rintro _ w1 u1 n1 i1 ⟨t, l1, l2, rfl, rfl⟩
  sred
  refine sd_mono (H.call (.pathLoop _)) ?_
  intro r s' h
  obtain ⟨ho, h1, h2⟩ := h i .PATH .nil _ rfl
  refine ⟨ho, ?_, ?_⟩
  · obtain ⟨k', pre', kids', v, e1, e2, e3⟩ := h1 _ _ _ _ rfl
    refine ⟨k', pre', kids', ⟨.IDENT, t, l1, l2⟩ :: v, e1, by rw [e2]; rfl, e3 [_] ?_⟩
    exact .rule (.strict .path_one) (.rule (.strict .one_path)
      (.rule (.strict .segment) (.rule (.strict .name_ref) (.one .IDENT t l1 l2))))
  · intro t' w2 e hne
    cases e
    obtain ⟨e1, e2⟩ := h2 hne
    refine ⟨e1, ?_⟩
    rw [e1, e2]
    exact .node (.strict .one_path) (TookIdent.segment ⟨t, l1, l2, rfl, rfl⟩)

theorem sd_pathLoop (H : Meets c) (qual : Completed) {j pre kids : Forest} {k : Kind} :
    Sd c (pathLoopBody qual) ⟨w, u, n, .node j k pre kids, o⟩ (Ret o fun _ w' i' =>
      Grew .path .path w (.node j k pre kids) w' i' ∧
        (kind0 w ≠ .COLON_COLON → w' = w ∧ i' = .node j k pre kids)) := by
  have stay : Grew .path .path w (.node j k pre kids) w (.node j k pre kids) := by
    intro j' k' pre' kids' e
    exact ⟨k', pre', kids', [], e, rfl, fun v0 h => by rwa [List.append_nil]⟩
  unfold pathLoopBody
  sred
  refine sd_at _ (fun u' h => ?_) (fun u' h => ?_)
  · cases hb : (kind2 w == .STAR || kind2 w == .L_BRACE) with
    | true =>
      simp only [Bool.and_false, Bool.not_true, Bool.false_eq_true, if_false]
      exact sd_pure _ _ ⟨rfl, stay, fun _ => ⟨rfl, rfl⟩⟩
    | false =>
      simp only [Bool.and_self, Bool.not_false, if_true]
      sred
      refine sd_bump _ nofun ?_
      rintro t l1 l2 w1 u1 n1 rfl
      refine sd_seq H.shrinks (sd_pathSegment H false nofun) ?_
      rintro _ w2 u2 n2 i2 ⟨t', l1', l2', rfl, rfl⟩
      sred
      refine sd_mono (H.call (.pathLoop _)) ?_
      intro r s' h
      obtain ⟨ho, h1, h2⟩ := h _ _ _ _ rfl
      refine ⟨ho, ?_, fun hne => absurd rfl hne⟩
      intro j' k' pre' kids' e
      cases e
      obtain ⟨k', pre', kids', v, e1, e2, e3⟩ := h1 _ _ _ _ rfl
      refine ⟨k', pre', kids', ⟨.COLON_COLON, t, l1, l2⟩ :: ⟨.IDENT, t', l1', l2'⟩ :: v, e1, by rw [e2]; rfl, ?_⟩
      intro v0 d
      have := e3 (v0 ++ [⟨.COLON_COLON, t, l1, l2⟩, ⟨.IDENT, t', l1', l2'⟩]) ?_
      · rwa [List.append_assoc] at this
      · refine .rule (.strict .path_more) (d.append ((Der.one .COLON_COLON t l1 l2).append ?_))
        exact .rule (.strict .segment) (.rule (.strict .name_ref) (.one .IDENT t' l1' l2'))
  · simp only [Bool.false_and, Bool.false_eq_true, if_false]
    exact sd_pure _ _ ⟨rfl, stay, fun _ => ⟨rfl, rfl⟩⟩

/-! ### Types -/

theorem sd_type (H : Meets c) : Sd c typeBody ⟨w, u, n, i, o⟩
    (Ret o fun _ w' i' => Took [.nt .type] w i w' i') := by
  unfold typeBody
  sred
  split
  · unfold refType
    rw [sd_at_eq]
    refine sd_assert _ _ _ fun _ => ?_
    sred
    refine sd_bump _ nofun ?_
    rintro t l1 l2 w1 u1 n1 rfl
    have h1 := Took.tok (w := w1) t l1 l2 .nil (k := .AMP) rfl
    refine sd_eat _ nofun ?_ ?_
    · rintro t l1 l2 w2 u2 n2 rfl
      have h2 := h1.trans (.tok t l1 l2 _ rfl)
      refine sd_seq H.shrinks (H.call .type_) ?_
      intro _ w3 u3 n3 i3 h3
      sred
      exact sd_pure _ _ ⟨rfl, .node (.strict .type_ref_mut) (h2.trans h3)⟩
    · intro u2 _
      refine sd_seq H.shrinks (H.call .type_) ?_
      intro _ w3 u3 n3 i3 h3
      sred
      exact sd_pure _ _ ⟨rfl, .node (.strict .type_ref) (h1.trans h3)⟩
  · sred
    split
    · rename_i h
      unfold pathType
      sred
      refine sd_assert _ _ _ fun h => ?_
      sred
      refine sd_seq H.shrinks (sd_path H (by simpa using h)) ?_
      intro _ w3 u3 n3 i3 h3
      sred
      exact sd_pure _ _ ⟨rfl, .node (.strict .type_path) h3.1.took⟩
    · exact sd_errRecover' _ _ _ H.shrinks

theorem sd_ascription (H : Meets c) : Sd c ascription ⟨w, u, n, i, o⟩
    (Ret o fun _ w' i' => Took [.tok .COLON, .nt .type] w i w' i') := by
  unfold ascription
  rw [sd_at_eq]
  refine sd_assert _ _ _ fun _ => ?_
  refine sd_bump _ nofun ?_
  rintro t l1 l2 w1 u1 n1 rfl
  refine sd_mono (H.call .type_) ?_
  rintro _ s' ⟨ho, h⟩
  exact ⟨ho, Took.trans (.tok t l1 l2 _ rfl) h⟩

/-! ### Type parameters -/

theorem sd_typeBound (H : Meets c) : Sd c typeBound ⟨w, u, n, i, o⟩
    (Ret o fun r w' i' => (r = true ∧ Took [.nt .bound] w i w' i') ∨ (r = false ∧ w' = w ∧ i' = i)) := by
  unfold typeBound
  sred
  split
  · refine sd_seq H.shrinks (sd_name H) ?_
    intro _ w1 u1 n1 i1 h1
    sred
    exact sd_pure _ _ ⟨rfl, .inl ⟨rfl, .node (.strict .bound) h1⟩⟩
  · rw [sd_abandon]
    exact sd_pure _ _ ⟨rfl, .inr ⟨rfl, rfl, rfl⟩⟩

theorem sd_boundsLoop (H : Meets c) : Sd c boundsLoopBody ⟨w, u, n, i, o⟩
    (Ret o fun _ w' i' => Took [.nt .bounds] w i w' i') := by
  unfold boundsLoopBody
  refine sd_seq H.shrinks (sd_typeBound H) ?_
  rintro r w1 u1 n1 i1 (⟨rfl, h1⟩ | ⟨rfl, rfl, rfl⟩)
  · sred
    refine sd_eat _ nofun ?_ ?_
    · rintro t l1 l2 w2 u2 n2 rfl
      sred
      refine sd_mono (H.call .boundsLoop) ?_
      rintro _ s' ⟨ho, h⟩
      exact ⟨ho, .flat (.strict .bounds_cons) (h1.trans (Took.trans (.tok t l1 l2 _ rfl) h))⟩
    · intro u2 _
      sred
      exact sd_pure _ _ ⟨rfl, .flat (.strict .bounds_one) h1⟩
  · sred
    exact sd_pure _ _ ⟨rfl, .flat .bounds_none (.refl _ _)⟩

theorem sd_genericParam (H : Meets c) : Sd c genericParam ⟨w, u, n, i, o⟩
    (Ret o fun _ w' i' => Took [.nt .generic] w i w' i') := by
  unfold genericParam
  sred
  split
  · unfold typeParam
    rw [sd_at_eq]
    refine sd_assert _ _ _ fun _ => ?_
    refine sd_seq H.shrinks (sd_name H) ?_
    intro _ w1 u1 n1 i1 h1
    refine sd_at _ (fun u' h => ?_) (fun u' h => ?_)
    · sred
      unfold bounds
      sred
      rw [sd_at_eq]
      refine sd_assert _ _ _ fun _ => ?_
      refine sd_bump _ nofun ?_
      rintro t l1 l2 w2 u2 n2 rfl
      have h2 := h1.trans (.tok t l1 l2 _ rfl)
      sred
      refine sd_seq H.shrinks (H.call .boundsLoop) ?_
      intro _ w3 u3 n3 i3 h3
      sred
      have h4 : Took [.nt .boundList] _ (Forest.tok i1 .COLON) _ _ := .node (.strict .bound_list) h3
      exact sd_pure _ _ ⟨rfl, .node (.strict .generic_bounds) (h2.trans h4)⟩
    · sred
      exact sd_pure _ _ ⟨rfl, .node (.strict .generic_plain) h1⟩
  · rw [sd_abandon]
    exact sd_errRecover' _ _ _ H.shrinks

/-- A list that is at its end. -/
theorem TookList.done {x : NT} {close : Kind} (hr : Lenient x none []) (w : List Tok) (i : Forest) :
    TookList x close w i w i :=
  ⟨.flat hr (.refl _ _), fun _ => ⟨rfl, rfl⟩⟩

theorem Took.of_same {w w' : List Tok} {i i' : Forest} (hw : w' = w) (hi : i'.shape = i.shape) :
    Took [] w i w' i' := by
  subst hw
  exact ⟨[], [], rfl, .nil, by rw [hi, List.append_nil]⟩

theorem sd_neither (a b : Kind) (f : Bool → Prog α)
    (h1 : ∀ u', kind0 w = a ∨ kind0 w = b → Sd c (f false) ⟨w, u', n, i, o⟩ Q)
    (h2 : ∀ u', kind0 w ≠ a → kind0 w ≠ b → Sd c (f true) ⟨w, u', n, i, o⟩ Q) :
    Sd c (neither a b >>= f) ⟨w, u, n, i, o⟩ Q := by
  unfold neither
  rw [bind_assoc_prog]
  refine sd_at _ (fun u' h => ?_) (fun u' h => ?_)
  · sred
    exact h1 _ (.inl h)
  · sred
    refine sd_at _ (fun u' h' => ?_) (fun u' h' => ?_)
    · sred
      exact h1 _ (.inr h')
    · sred
      exact h2 _ h h'

theorem sd_genericParamLoop (H : Meets c) : Sd c genericParamLoopBody ⟨w, u, n, i, o⟩
    (Ret o fun _ w' i' => TookList .generics .GT w i w' i') := by
  unfold genericParamLoopBody
  refine sd_neither _ _ _ (fun u' _ => ?_) (fun u' _ hne => ?_)
  · sred
    exact sd_pure _ _ ⟨rfl, .done (.strict .generics_nil) _ _⟩
  · sred
    refine sd_seq H.shrinks (sd_genericParam H) ?_
    intro _ w1 u1 n1 i1 h1
    refine sd_at _ (fun u' h => ?_) (fun u' h => ?_)
    · sred
      refine sd_mono (H.call .genericParamLoop) ?_
      rintro _ s' ⟨ho, _, h2⟩
      obtain ⟨e1, e2⟩ := h2 h
      exact ⟨ho, .flat (.strict .generics_one) (h1.trans (.of_same e1 e2)), fun h => absurd h hne⟩
    · sred
      refine sd_expect _ nofun ?_
      rintro t l1 l2 w2 u2 n2 rfl
      sred
      refine sd_mono (H.call .genericParamLoop) ?_
      rintro _ s' ⟨ho, h2, _⟩
      exact ⟨ho, .flat (.strict .generics_cons) (h1.trans (Took.trans (.tok t l1 l2 _ rfl) h2)),
        fun h => absurd h hne⟩

theorem sd_optGenericParamList (H : Meets c) : Sd c optGenericParamList ⟨w, u, n, i, o⟩
    (Ret o fun _ w' i' => Took [.nt .genericList] w i w' i' ∨ (w' = w ∧ i' = i)) := by
  unfold optGenericParamList
  refine sd_at _ (fun u' h => ?_) (fun u' h => ?_)
  · sred
    unfold genericParamList
    rw [sd_at_eq]
    refine sd_assert _ _ _ fun _ => ?_
    sred
    refine sd_bump _ nofun ?_
    rintro t l1 l2 w1 u1 n1 rfl
    refine sd_seq H.shrinks (H.call .genericParamLoop) ?_
    intro _ w2 u2 n2 i2 h2
    refine sd_expect _ nofun ?_
    rintro t' l1' l2' w3 u3 n3 rfl
    sred
    exact sd_pure _ _ ⟨rfl, .inl (.node (.strict .generic_list)
      ((Took.tok t l1 l2 _ rfl).trans (h2.1.trans (.tok t' l1' l2' _ rfl))))⟩
  · sred
    exact sd_pure _ _ ⟨rfl, .inr ⟨rfl, rfl⟩⟩

end

end Verif.Parser
