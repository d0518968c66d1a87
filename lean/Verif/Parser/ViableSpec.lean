import Verif.Parser.Viable

set_option autoImplicit false

/-!
What has been read where the functions of the grammar meet their first error: names, types, type
parameters, parameters, structures and patterns.
-/

namespace Verif.Parser

open Language Lexer

/-- A list has begun, and is not at its end. -/
def BegunList (x : NT) (close : Kind) (w w' : List Tok) : Prop :=
  Begun [.nt x] w w' ∧ kind0 w ≠ close

/-- What the function has read from the tokens `w`, behind the trees `i`, if it meets its first error
with the tokens `w'` left. -/
def StopQ : Fn → List Tok → Forest → List Tok → Prop
  | .skipUntil _, _, _, _ => True
  | .exprBlockLoop, _, _, _ => True
  | .rootLoop, w, _, w' => Begun [.nt .file] w w'
  | .addressItemLoop, w, _, w' => Begun [.nt .modules] w w'
  | .itemLoop, w, _, w' => Begun [.nt .items] w w'
  | .recordFieldLoop, w, _, w' => BegunList .fields .R_BRACE w w'
  | .paramLoop, w, _, w' => BegunList .params .R_PAREN w w'
  | .type_, w, _, w' => Begun [.nt .type] w w'
  | .pathLoop _, w, i, w' => ∀ j k pre kids, i = .node j k pre kids →
      Growing .path .path w i w' ∧ kind0 w = .COLON_COLON
  | .genericParamLoop, w, _, w' => BegunList .generics .GT w w'
  | .boundsLoop, w, _, w' => Begun [.nt .bounds] w w'
  | .pattern, w, _, w' => Begun [.nt .pattern] w w'
  | .tuplePatLoop _ _ _, w, _, w' => BegunList .pats .R_PAREN w w'
  | .recordPatLoop, w, _, w' => BegunList .patFields .R_BRACE w w'
  | .blockLoop, w, _, w' => Begun [.nt .stmts] w w'
  | .stmt .optional, w, _, w' => Begun [.nt .stmt] w w'
  | .stmt _, _, _, _ => True
  | .exprBp bp, w, _, w' => 1 ≤ bp → Begun [.nt (levelNT bp)] w w'
  | .exprBpLoop bp _, w, i, w' => 1 ≤ bp → ∀ j k pre kids, i = .node j k pre kids →
      (12 < bp → w' = w) ∧ ∀ q, bp ≤ q → q ≤ 12 → nextOp w ≤ q → Growing (.expr q) (.expr bp) w i w'
  | .postfixLoop _, w, i, w' => ∀ j k pre kids, i = .node j k pre kids → Growing .postfixed .postfixed w i w'
  | .argLoop, w, _, w' => BegunList .args .R_PAREN w w'
  | .recordExprLoop, w, _, w' => BegunList .exprFields .R_BRACE w w'
  | .parenLoop, w, _, w' => ∃ m, Begun (List.replicate m (.nt (.expr 1))) w w'

/-- The functions that can come to the end of the input without an error. -/
def isFin : Fn → Prop
  | .blockLoop | .stmt .optional | .exprBp _ | .exprBpLoop _ _ | .postfixLoop _ | .argLoop | .recordExprLoop
  | .parenLoop => True
  | _ => False

/-- The functions called meet their first errors where they should. -/
structure Stops (c : (f : Fn) → TState → Out TState f.Res) (e : Fn → TState → TState → Prop) : Prop
    extends Meets c where
  cuts : Cuts e
  stop : ∀ f s, Coherent s.toks → (∀ t, e f s t → StopQ f s.toks s.items t.toks) ∧
    (isFin f → ∀ r s', c f s = .ok r s' → s'.toks = [] → StopQ f s.toks s.items [])

section
variable {c : (f : Fn) → TState → Out TState f.Res} {e : Fn → TState → TState → Prop} {α : Type}
  {w w' : List Tok} {u n : Nat} {i i' : Forest} {o : List (Forest × Forest)} {V V' : List Tok → Prop}
  {F : Prop}

theorem Stops.ve (H : Stops c e) (f : Fn) : Ve c e (Parser.call f) ⟨w, u, n, i, o⟩ (StopQ f w i) (isFin f) :=
  ve_call fun hw => H.stop f _ hw

/-- A call in a place where the end of the input does not matter. -/
theorem Stops.call (H : Stops c e) (f : Fn) (h : ∀ w', StopQ f w i w' → V w') :
    Ve c e (Parser.call f) ⟨w, u, n, i, o⟩ V False :=
  ve_mono (H.ve f) False.elim h

theorem Stops.callF (H : Stops c e) (f : Fn) (hf : isFin f) (h : ∀ w', StopQ f w i w' → V w') :
    Ve c e (Parser.call f) ⟨w, u, n, i, o⟩ V F :=
  ve_mono (H.ve f) (fun _ => hf) h

theorem ve_sub {p : Prog α} {s : TState} (h : Ve c e p s V' F) (hV : ∀ w', V' w' → V w') : Ve c e p s V False :=
  ve_mono h False.elim hV

theorem ve_subT {p : Prog α} {s : TState} (h : Ve c e p s V' True) (hV : ∀ w', V' w' → V w') : Ve c e p s V F :=
  ve_mono h (fun _ => trivial) hV

macro "vred" : tactic =>
  `(tactic| try simp only [bind_assoc_prog, pure_bind_prog, ve_start, ve_complete, ve_current, ve_nthAt1,
    ve_nth1, ve_nth2, ve_isPathStart, ve_atTs, ve_currentText, ve_precede, if_true, if_false,
    Bool.false_eq_true, Bool.not_true, Bool.not_false, Bool.true_eq_false])

theorem ve_done (a : α) (s : TState) : Ve c e (pure a) s V False := ve_pure a s False.elim

/-! ### Names and paths -/

theorem ve_nameR (ts : TokenSet) (h : V w) : Ve c e (nameR ts) ⟨w, u, n, i, o⟩ V False := by
  unfold nameR
  refine ve_at _ (fun u' _ => ?_) (fun u' _ => ?_)
  · vred
    refine ve_bump _ nofun ?_
    rintro t l1 l2 w' u n rfl
    vred
    exact ve_done _ _
  · vred
    exact ve_errRecover' _ _ h

theorem ve_name (h : V w) : Ve c e name ⟨w, u, n, i, o⟩ V False := ve_nameR _ h

theorem ve_nameRef (h : V w) : Ve c e nameRef ⟨w, u, n, i, o⟩ V False := by
  unfold nameRef
  refine ve_at _ (fun u' _ => ?_) (fun u' _ => ?_)
  · vred
    refine ve_bump _ nofun ?_
    rintro t l1 l2 w' u n rfl
    vred
    exact ve_done _ _
  · vred
    exact ve_errRecover' _ _ h

/-- At an identifier, there is no error. -/
theorem ve_nameRef_ident (h : kind0 w = .IDENT) : Ve c e nameRef ⟨w, u, n, i, o⟩ V False := by
  unfold nameRef
  refine ve_at _ (fun u' _ => ?_) (fun u' hne => absurd h hne)
  vred
  refine ve_bump _ nofun ?_
  rintro t l1 l2 w' u n rfl
  vred
  exact ve_done _ _

theorem ve_pathSegment (H : Stops c e) (first : Bool) (hf : first = true → kind0 w = .IDENT)
    (hV : first = false → V w) : Ve c e (pathSegment first) ⟨w, u, n, i, o⟩ V False := by
  have key : ∀ (q : Prog Unit) (m : Marker) u n, (kind0 w ≠ .IDENT → V w) →
      Ve c e (if (kind0 w == .IDENT) = true then do
        nameRef
        let _ ← m.complete .PATH_SEGMENT
        pure ()
      else do
        errRecover "expected identifier" ITEM_RECOVERY_SET
        q) ⟨w, u, n, .nil, (.nil, i) :: o⟩ V False := by
    intro q m u n hV
    split
    · rename_i h
      refine ve_seq H.shrinks (sd_nameRef H.toMeets) (ve_nameRef_ident (by simpa using h)) ?_
      intro _ w1 u1 n1 i1 _
      vred
      exact ve_done _ _
    · rename_i h
      exact ve_errRecover _ _ _ (hV (by simpa using h))
  unfold pathSegment
  vred
  cases first with
  | true =>
    vred
    rw [ve_eat_no _ (by rw [hf rfl]; nofun)]
    vred
    exact key _ _ _ _ fun h => absurd (hf rfl) h
  | false =>
    vred
    exact key _ _ _ _ fun _ => hV rfl

/-- A path has begun, and its first name is followed by `::`. -/
def PathStop (w w' : List Tok) : Prop :=
  Begun [.nt .path] w w' ∧ ∃ t w1, w = t :: w1 ∧ kind0 w1 = .COLON_COLON

theorem ve_path (H : Stops c e) (hw : kind0 w = .IDENT) : Ve c e path ⟨w, u, n, i, o⟩ (PathStop w) False := by
  unfold path
  vred
  refine ve_seq H.shrinks (sd_pathSegment H.toMeets true fun _ => hw)
    (ve_pathSegment H true (fun _ => hw) nofun) ?_
  rintro _ w1 u1 n1 i1 ⟨t, l1, l2, rfl, rfl⟩
  vred
  refine H.call (.pathLoop _) fun w' h => ?_
  obtain ⟨h1, h2⟩ := h _ _ _ _ rfl
  refine ⟨?_, _, _, rfl, h2⟩
  have hn : TookNode .path (⟨.IDENT, t, l1, l2⟩ :: w1) i w1 (.node i .PATH .nil (segmentNode .nil)) :=
    .flat (.strict .path_one) (.node (.strict .one_path) (TookIdent.segment ⟨t, l1, l2, rfl, rfl⟩))
  exact hn.growing h1

theorem ve_pathLoop (H : Stops c e) (qual : Completed) {j pre kids : Forest} {k : Kind} :
    Ve c e (pathLoopBody qual) ⟨w, u, n, .node j k pre kids, o⟩
      (fun w' => Growing .path .path w (.node j k pre kids) w' ∧ kind0 w = .COLON_COLON) False := by
  unfold pathLoopBody
  vred
  refine ve_at _ (fun u' h => ?_) (fun u' h => ?_)
  · cases hb : (kind2 w == .STAR || kind2 w == .L_BRACE) with
    | true =>
      simp only [Bool.and_false, Bool.not_true, Bool.false_eq_true, if_false]
      exact ve_done _ _
    | false =>
      simp only [Bool.and_self, Bool.not_false, if_true]
      vred
      refine ve_bump _ nofun ?_
      rintro t l1 l2 w1 u1 n1 rfl
      have ht := Took.tok (w := w1) t l1 l2 .nil (k := .COLON_COLON) rfl
      refine ve_seq H.shrinks (sd_pathSegment H.toMeets false nofun) (ve_pathSegment H false nofun fun _ =>
        ⟨.node (.strict .path_more) (fun _ _ d => d) ht.stop, rfl⟩) ?_
      intro _ w2 u2 n2 i2 h2
      vred
      refine H.call (.pathLoop _) fun w' h => ?_
      obtain ⟨h1, _⟩ := h _ _ _ _ rfl
      exact ⟨(Grew.node (.strict .path_more) (fun _ _ d => d) (ht.trans h2.segment)).then h1, rfl⟩
  · simp only [Bool.false_and, Bool.false_eq_true, if_false]
    exact ve_done _ _

/-! ### Types -/

theorem ve_type (H : Stops c e) : Ve c e typeBody ⟨w, u, n, i, o⟩ (Begun [.nt .type] w) False := by
  unfold typeBody
  vred
  split
  · unfold refType
    rw [ve_at_eq]
    refine ve_assert _ _ _ fun _ => ?_
    vred
    refine ve_bump _ nofun ?_
    rintro t l1 l2 w1 u1 n1 rfl
    have h1 := Took.tok (w := w1) t l1 l2 .nil (k := .AMP) rfl
    refine ve_eat _ nofun ?_ ?_
    · rintro t l1 l2 w2 u2 n2 rfl
      have h2 := h1.trans (.tok t l1 l2 _ rfl)
      refine ve_seq H.shrinks (H.toMeets.call .type_)
        (H.call .type_ fun w' h => (h2.then h).rule (.strict .type_ref_mut)) ?_
      intro _ w3 u3 n3 i3 h3
      vred
      exact ve_done _ _
    · intro u2 _
      refine ve_seq H.shrinks (H.toMeets.call .type_)
        (H.call .type_ fun w' h => (h1.then h).rule (.strict .type_ref)) ?_
      intro _ w3 u3 n3 i3 h3
      vred
      exact ve_done _ _
  · vred
    split
    · unfold pathType
      vred
      refine ve_assert _ _ _ fun h => ?_
      vred
      refine ve_seq H.shrinks (sd_path H.toMeets (by simpa using h))
        (ve_sub (ve_path H (by simpa using h)) fun w' h => h.1.rule (.strict .type_path)) ?_
      intro _ w3 u3 n3 i3 h3
      vred
      exact ve_done _ _
    · exact ve_errRecover' _ _ (.here _)

theorem ve_ascription (H : Stops c e) :
    Ve c e ascription ⟨w, u, n, i, o⟩ (Begun [.tok .COLON, .nt .type] w) False := by
  unfold ascription
  rw [ve_at_eq]
  refine ve_assert _ _ _ fun _ => ?_
  refine ve_bump _ nofun ?_
  rintro t l1 l2 w1 u1 n1 rfl
  exact H.call .type_ fun w' h => (Took.tok t l1 l2 .nil rfl).then h

/-! ### Type parameters -/

theorem ve_typeBound (H : Stops c e) : Ve c e typeBound ⟨w, u, n, i, o⟩ (Begun [.nt .bound] w) False := by
  unfold typeBound
  vred
  split
  · refine ve_seq H.shrinks (sd_name H.toMeets) (ve_name (.here _)) ?_
    intro _ w1 u1 n1 i1 h1
    vred
    exact ve_done _ _
  · rw [ve_abandon]
    exact ve_done _ _

theorem ve_boundsLoop (H : Stops c e) : Ve c e boundsLoopBody ⟨w, u, n, i, o⟩ (Begun [.nt .bounds] w) False := by
  unfold boundsLoopBody
  refine ve_seq H.shrinks (sd_typeBound H.toMeets) (ve_sub (ve_typeBound H) fun w' h => h.rule (.strict .bounds_one)) ?_
  rintro r w1 u1 n1 i1 (⟨rfl, h1⟩ | ⟨rfl, rfl, rfl⟩)
  · vred
    refine ve_eat _ nofun ?_ ?_
    · rintro t l1 l2 w2 u2 n2 rfl
      vred
      exact H.call .boundsLoop fun w' h => ((h1.trans (.tok t l1 l2 _ rfl)).then h).rule (.strict .bounds_cons)
    · intro u2 _
      vred
      exact ve_done _ _
  · vred
    exact ve_done _ _

theorem ve_genericParam (H : Stops c e) : Ve c e genericParam ⟨w, u, n, i, o⟩ (Begun [.nt .generic] w) False := by
  unfold genericParam
  vred
  split
  · unfold typeParam
    rw [ve_at_eq]
    refine ve_assert _ _ _ fun _ => ?_
    refine ve_seq H.shrinks (sd_name H.toMeets) (ve_name (.here _)) ?_
    intro _ w1 u1 n1 i1 h1
    refine ve_at _ (fun u' h => ?_) (fun u' h => ?_)
    · vred
      unfold bounds
      vred
      rw [ve_at_eq]
      refine ve_assert _ _ _ fun _ => ?_
      refine ve_bump _ nofun ?_
      rintro t l1 l2 w2 u2 n2 rfl
      have h2 := h1.trans (.tok t l1 l2 _ rfl)
      vred
      refine ve_seq H.shrinks (H.toMeets.call .boundsLoop)
        (H.call .boundsLoop fun w' h => (h2.then (h.rule (.strict .bound_list))).rule (.strict .generic_bounds)) ?_
      intro _ w3 u3 n3 i3 h3
      vred
      exact ve_done _ _
    · vred
      exact ve_done _ _
  · rw [ve_abandon]
    exact ve_errRecover' _ _ (.here _)

theorem ve_genericParamLoop (H : Stops c e) :
    Ve c e genericParamLoopBody ⟨w, u, n, i, o⟩ (BegunList .generics .GT w) False := by
  unfold genericParamLoopBody
  refine ve_neither _ _ _ (fun u' _ => ?_) (fun u' _ hne => ?_)
  · vred
    exact ve_done _ _
  · vred
    refine ve_seq H.shrinks (sd_genericParam H.toMeets)
      (ve_sub (ve_genericParam H) fun w' h => ⟨h.rule (.strict .generics_one), hne⟩) ?_
    intro _ w1 u1 n1 i1 h1
    refine ve_at _ (fun u' h => ?_) (fun u' h => ?_)
    · vred
      exact H.call .genericParamLoop fun w' h' => absurd h h'.2
    · vred
      refine ve_expect _ nofun ⟨.rule (.strict .generics_cons) h1.stop, hne⟩ ?_
      rintro t l1 l2 w2 u2 n2 rfl
      vred
      exact H.call .genericParamLoop fun w' h =>
        ⟨((h1.trans (.tok t l1 l2 _ rfl)).then h.1).rule (.strict .generics_cons), hne⟩

theorem ve_optGenericParamList (H : Stops c e) :
    Ve c e optGenericParamList ⟨w, u, n, i, o⟩ (Begun [.nt .genericList] w) False := by
  unfold optGenericParamList
  refine ve_at _ (fun u' h => ?_) (fun u' h => ?_)
  · vred
    unfold genericParamList
    rw [ve_at_eq]
    refine ve_assert _ _ _ fun _ => ?_
    vred
    refine ve_bump _ nofun ?_
    rintro t l1 l2 w1 u1 n1 rfl
    have ht := Took.tok (w := w1) t l1 l2 .nil (k := .LT) rfl
    refine ve_seq H.shrinks (H.toMeets.call .genericParamLoop)
      (H.call .genericParamLoop fun w' h => .rule (.strict .generic_list) (ht.mid h.1)) ?_
    intro _ w2 u2 n2 i2 h2
    refine ve_expect _ nofun (.rule (.strict .generic_list) (ht.trans h2.1).stop) ?_
    rintro t' l1' l2' w3 u3 n3 rfl
    vred
    exact ve_done _ _
  · vred
    exact ve_done _ _

/-! ### Parameters -/

theorem ve_param (H : Stops c e) (m : Marker) :
    Ve c e (param m) ⟨w, u, n, .nil, (.nil, i) :: o⟩ (Begun [.nt .param] w) False := by
  unfold param
  refine ve_seq H.shrinks (sd_name H.toMeets) (ve_name (.here _)) ?_
  intro _ w1 u1 n1 i1 h1
  refine ve_at _ (fun u' h => ?_) (fun u' h => ?_)
  · vred
    refine ve_seq H.shrinks (sd_ascription H.toMeets)
      (ve_sub (ve_ascription H) fun w' h => (h1.then h).rule (.strict .param)) ?_
    intro _ w2 u2 n2 i2 h2
    vred
    exact ve_done _ _
  · vred
    exact ve_error _ _ _ (.rule (.strict .param) h1.stop)

theorem ve_paramLoop (H : Stops c e) :
    Ve c e paramLoopBody ⟨w, u, n, i, o⟩ (BegunList .params .R_PAREN w) False := by
  unfold paramLoopBody
  refine ve_neither _ _ _ (fun u' _ => ?_) (fun u' _ hne => ?_)
  · vred
    exact ve_done _ _
  · vred
    cases TYPE_FIRST.contains (kind0 w) with
    | false => vred; exact ve_error _ _ _ ⟨.here _, hne⟩
    | true =>
      vred
      refine ve_seq H.shrinks (sd_param H.toMeets _)
        (ve_sub (ve_param H _) fun w' h => ⟨h.rule (.strict .params_one), hne⟩) ?_
      intro _ w1 u1 n1 i1 h1
      refine ve_at _ (fun u' h => ?_) (fun u' h => ?_)
      · vred
        exact H.call .paramLoop fun w' h' => absurd h h'.2
      · vred
        refine ve_expect _ nofun ⟨.rule (.strict .params_cons) h1.stop, hne⟩ ?_
        rintro t l1 l2 w2 u2 n2 rfl
        vred
        exact H.call .paramLoop fun w' h =>
          ⟨((h1.trans (.tok t l1 l2 _ rfl)).then h.1).rule (.strict .params_cons), hne⟩

theorem ve_paramList (H : Stops c e) :
    Ve c e paramList ⟨w, u, n, i, o⟩ (Begun [.nt .paramList] w) False := by
  unfold paramList
  vred
  refine ve_bump _ nofun ?_
  rintro t l1 l2 w1 u1 n1 rfl
  have ht := Took.tok (w := w1) t l1 l2 .nil (k := .L_PAREN) rfl
  refine ve_seq H.shrinks (H.toMeets.call .paramLoop)
    (H.call .paramLoop fun w' h => .rule (.strict .param_list) (ht.mid h.1)) ?_
  intro _ w2 u2 n2 i2 h2
  refine ve_expect _ nofun (.rule (.strict .param_list) (ht.trans h2.1).stop) ?_
  rintro t' l1' l2' w3 u3 n3 rfl
  vred
  exact ve_done _ _

/-! ### Structures -/

theorem ve_recordField (H : Stops c e) :
    Ve c e recordField ⟨w, u, n, i, o⟩ (Begun [.nt .field] w) False := by
  unfold recordField
  vred
  refine ve_at _ (fun u' h => ?_) (fun u' h => ?_)
  · vred
    refine ve_seq H.shrinks (sd_name H.toMeets) (ve_name (.here _)) ?_
    intro _ w1 u1 n1 i1 h1
    refine ve_expect _ nofun (.rule (.strict .field) h1.stop) ?_
    rintro t l1 l2 w2 u2 n2 rfl
    refine ve_seq H.shrinks (H.toMeets.call .type_)
      (H.call .type_ fun w' h => ((h1.trans (.tok t l1 l2 _ rfl)).then h).rule (.strict .field)) ?_
    intro _ w3 u3 n3 i3 h3
    vred
    exact ve_done _ _
  · vred
    rw [ve_abandon]
    exact ve_errRecover' _ _ (.here _)

theorem ve_recordFieldLoop (H : Stops c e) :
    Ve c e recordFieldLoopBody ⟨w, u, n, i, o⟩ (BegunList .fields .R_BRACE w) False := by
  unfold recordFieldLoopBody
  refine ve_neither _ _ _ (fun u' _ => ?_) (fun u' hne _ => ?_)
  · vred
    exact ve_done _ _
  · vred
    refine ve_seq H.shrinks (sd_recordField H.toMeets)
      (ve_sub (ve_recordField H) fun w' h => ⟨h.rule (.strict .fields_one), hne⟩) ?_
    intro _ w1 u1 n1 i1 h1
    refine ve_at _ (fun u' h => ?_) (fun u' h => ?_)
    · vred
      exact H.call .recordFieldLoop fun w' h' => absurd h h'.2
    · vred
      refine ve_expect _ nofun ⟨.rule (.strict .fields_cons) h1.stop, hne⟩ ?_
      rintro t l1 l2 w2 u2 n2 rfl
      vred
      exact H.call .recordFieldLoop fun w' h =>
        ⟨((h1.trans (.tok t l1 l2 _ rfl)).then h.1).rule (.strict .fields_cons), hne⟩

theorem ve_recordFieldList (H : Stops c e) :
    Ve c e recordFieldList ⟨w, u, n, i, o⟩ (Begun [.nt .fieldList] w) False := by
  unfold recordFieldList
  rw [ve_at_eq]
  refine ve_assert _ _ _ fun _ => ?_
  vred
  refine ve_bump _ nofun ?_
  rintro t l1 l2 w1 u1 n1 rfl
  have ht := Took.tok (w := w1) t l1 l2 .nil (k := .L_BRACE) rfl
  refine ve_seq H.shrinks (H.toMeets.call .recordFieldLoop)
    (H.call .recordFieldLoop fun w' h => .rule (.strict .field_list) (ht.mid h.1)) ?_
  intro _ w2 u2 n2 i2 h2
  refine ve_expect _ nofun (.rule (.strict .field_list) (ht.trans h2.1).stop) ?_
  rintro t' l1' l2' w3 u3 n3 rfl
  vred
  exact ve_done _ _

theorem ve_structDef (H : Stops c e) (m : Marker) :
    Ve c e (structDef m) ⟨w, u, n, .nil, (.nil, i) :: o⟩ (Begun [.nt .structDef] w) False := by
  unfold structDef
  refine ve_bump _ nofun ?_
  rintro t l1 l2 w1 u1 n1 rfl
  have ht := Took.tok (w := w1) t l1 l2 .nil (k := .STRUCT_KW) rfl
  refine ve_seq H.shrinks (sd_nameR H.toMeets _) (ve_nameR _ (.rule (.strict .struct_native) ht.stop)) ?_
  intro _ w2 u2 n2 i2 h2
  have h1 := ht.trans h2
  refine ve_seq H.shrinks (sd_optGenericParamList H.toMeets)
    (ve_sub (ve_optGenericParamList H) fun w' h => .rule (.strict .struct_generic_native) (h1.mid h)) ?_
  intro _ w3 u3 n3 i3 h3
  vred
  split
  · rcases h3 with h3 | ⟨rfl, rfl⟩
    · refine ve_seq H.shrinks (sd_recordFieldList H.toMeets) (ve_sub (ve_recordFieldList H) fun w' h =>
        ((h1.trans h3).then h).rule (.strict .struct_generic_fields)) ?_
      intro _ w4 u4 n4 i4 h4
      vred
      exact ve_done _ _
    · refine ve_seq H.shrinks (sd_recordFieldList H.toMeets) (ve_sub (ve_recordFieldList H) fun w' h =>
        (h1.then h).rule (.strict .struct_fields)) ?_
      intro _ w4 u4 n4 i4 h4
      vred
      exact ve_done _ _
  · split
    · refine ve_bump _ nofun ?_
      rintro t' l1' l2' w4 u4 n4 rfl
      vred
      exact ve_done _ _
    · rcases h3 with h3 | ⟨rfl, rfl⟩
      · exact ve_error _ _ _ (.rule (.strict .struct_generic_native) (h1.trans h3).stop)
      · exact ve_error _ _ _ (.rule (.strict .struct_native) h1.stop)

/-! ### Patterns -/

theorem ve_identPat (H : Stops c e) : Ve c e identPat ⟨w, u, n, i, o⟩ (Begun [.nt .identPat] w) False := by
  unfold identPat
  vred
  refine ve_eat _ nofun ?_ ?_
  · rintro t l1 l2 w1 u1 n1 rfl
    refine ve_seq H.shrinks (sd_name H.toMeets)
      (ve_name (.rule (.strict .ident_pat_mut) (Took.tok t l1 l2 .nil rfl).stop)) ?_
    intro _ w2 u2 n2 i2 h2
    vred
    exact ve_done _ _
  · intro u1 _
    refine ve_seq H.shrinks (sd_name H.toMeets) (ve_name (.here _)) ?_
    intro _ w2 u2 n2 i2 h2
    vred
    exact ve_done _ _

theorem ve_tuplePatLoop (H : Stops c e) (a b d : Bool) :
    Ve c e (tuplePatLoopBody a b d) ⟨w, u, n, i, o⟩ (BegunList .pats .R_PAREN w) False := by
  unfold tuplePatLoopBody
  refine ve_neither _ _ _ (fun u' _ => ?_) (fun u' _ hne => ?_)
  · vred
    exact ve_done _ _
  · vred
    cases hf : PATTERN_FIRST.contains (kind0 w) with
    | false => vred; exact ve_error _ _ _ ⟨.here _, hne⟩
    | true =>
      vred
      refine ve_at _ (fun u' h => ?_) (fun u' h => ?_)
      · rw [h, rest_not_first] at hf; cases hf
      · vred
        rw [Bool.or_false]
        refine ve_seq H.shrinks (H.toMeets.call .pattern)
          (H.call .pattern fun w' h => ⟨h.rule (.strict .pats_one), hne⟩) ?_
        intro _ w1 u1 n1 i1 h1
        refine ve_at _ (fun u' h => ?_) (fun u' h => ?_)
        · vred
          exact H.call (.tuplePatLoop a true d) fun w' h' => absurd h h'.2
        · vred
          refine ve_expect _ nofun ⟨.rule (.strict .pats_cons) h1.stop, hne⟩ ?_
          rintro t l1 l2 w2 u2 n2 rfl
          exact H.call (.tuplePatLoop true true d) fun w' h =>
            ⟨((h1.trans (.tok t l1 l2 _ rfl)).then h.1).rule (.strict .pats_cons), hne⟩

/-- The patterns of a tuple in parentheses are a pattern. -/
theorem pats_parens {v : List Tok} {sh : List Shape} (h : Der [.nt .pats] v sh) (t : Text) (l1 l2 : Kind) :
    ∃ sh', Der [.nt .pattern] (⟨.L_PAREN, t, l1, l2⟩ :: v ++ [⟨.R_PAREN, [], .EOF, .EOF⟩]) sh' := by
  have hp := Der.one .L_PAREN t l1 l2
  have hq := Der.one .R_PAREN [] .EOF .EOF
  have inv : ∀ (syms : List Sym) (vs : List (Kind × Text)) sh, DerivesBy Lenient syms vs sh →
      syms = [.nt .pats] → ∃ sh', DerivesBy Lenient [.nt .pattern] ((.L_PAREN, t) :: vs ++ [(.R_PAREN, [])]) sh' := by
    intro syms vs sh hd es
    cases hd with
    | nil => cases es
    | tok _ => cases es
    | hex _ => cases es
    | nt r hi ho =>
      cases es
      cases ho
      rw [List.append_nil]
      cases r with
      | strict r =>
        cases r with
        | pats_nil =>
          cases hi
          exact ⟨_, by
            have := DerivesBy.nt (.strict .pattern_unit) (DerivesBy.append hp hq) .nil
            rwa [List.append_nil] at this⟩
        | pats_one =>
          exact ⟨_, by
            have := DerivesBy.nt (.strict .pattern_paren) (DerivesBy.append hp (DerivesBy.append hi hq)) .nil
            rwa [List.append_nil] at this⟩
        | pats_cons =>
          exact ⟨_, by
            have := DerivesBy.nt (.strict .pattern_tuple) (DerivesBy.append hp (DerivesBy.append hi hq)) .nil
            rwa [List.append_nil] at this⟩
  obtain ⟨sh', hd⟩ := inv _ _ _ h rfl
  exact ⟨sh', by
    unfold Der
    rw [List.map_append]
    exact hd⟩

theorem Begun.parens {w w' : List Tok} (h : Begun [.nt .pats] w w') (t : Text) (l1 l2 : Kind) :
    Begun [.nt .pattern] (⟨.L_PAREN, t, l1, l2⟩ :: w) w' := by
  obtain ⟨v, r, sh, rfl, hd⟩ := h
  obtain ⟨sh', hd⟩ := pats_parens hd t l1 l2
  exact ⟨⟨.L_PAREN, t, l1, l2⟩ :: v, r ++ [⟨.R_PAREN, [], .EOF, .EOF⟩], sh', rfl, by
    rw [← List.append_assoc]; exact hd⟩

theorem ve_tuplePat (H : Stops c e) : Ve c e tuplePat ⟨w, u, n, i, o⟩ (Begun [.nt .pattern] w) False := by
  unfold tuplePat
  rw [ve_at_eq]
  refine ve_assert _ _ _ fun _ => ?_
  vred
  refine ve_bump _ nofun ?_
  rintro t l1 l2 w1 u1 n1 rfl
  have h1 := Took.tok (w := w1) t l1 l2 .nil (k := .L_PAREN) rfl
  refine ve_seq H.shrinks (o := (.nil, i) :: o) (P := fun r w' i' =>
      (r = (false, false, false) ∧ w' = w1 ∧ i'.shape = (Forest.nil.tok .L_PAREN).shape) ∨
      (kind0 w1 ≠ .R_PAREN ∧ r = (false, true, false) ∧ Took [.nt .pattern] w1 (.tok .nil .L_PAREN) w' i') ∨
      (kind0 w1 ≠ .R_PAREN ∧ r = (true, true, false) ∧
        Took [.nt .pattern, .tok .COMMA, .nt .pats] w1 (.tok .nil .L_PAREN) w' i'))
    (H.toMeets.call (.tuplePatLoop false false false))
    (H.call (.tuplePatLoop false false false) fun w' h => h.1.parens t l1 l2) ?_
  rintro r w2 u2 n2 i2 (⟨rfl, e1, e2⟩ | ⟨_, rfl, h2⟩ | ⟨_, rfl, h2⟩)
  · refine ve_expect _ nofun (.rule (.strict .pattern_unit) (h1.trans (Took.of_same e1 e2)).stop) ?_
    rintro t' l1' l2' w3 u3 n3 rfl
    vred
    exact ve_done _ _
  · refine ve_expect _ nofun (.rule (.strict .pattern_paren) (h1.trans h2).stop) ?_
    rintro t' l1' l2' w3 u3 n3 rfl
    vred
    exact ve_done _ _
  · refine ve_expect _ nofun (.rule (.strict .pattern_tuple) (h1.trans h2).stop) ?_
    rintro t' l1' l2' w3 u3 n3 rfl
    vred
    exact ve_done _ _

theorem ve_recordPatField (H : Stops c e) :
    Ve c e recordPatField ⟨w, u, n, i, o⟩ (Begun [.nt .patField] w) False := by
  have key : ∀ (m : Marker) u n, Ve c e (do
      identPat
      let _ ← m.complete .RECORD_PAT_FIELD
      pure ()) ⟨w, u, n, .nil, (.nil, i) :: o⟩ (Begun [.nt .patField] w) False := by
    intro m u n
    refine ve_seq H.shrinks (sd_identPat H.toMeets)
      (ve_sub (ve_identPat H) fun w' h => h.rule (.strict .pat_field_short)) ?_
    intro _ w2 u2 n2 i2 h2
    vred
    exact ve_done _ _
  unfold recordPatField
  vred
  split
  · vred
    split
    · refine ve_seq H.shrinks (sd_nameRef H.toMeets) (ve_nameRef (.here _)) ?_
      intro _ w1 u1 n1 i1 h1
      refine ve_bump _ nofun ?_
      rintro t l1 l2 w2 u2 n2 rfl
      refine ve_seq H.shrinks (H.toMeets.call .pattern) (H.call .pattern fun w' h =>
        ((h1.nameRef.trans (.tok t l1 l2 _ rfl)).then h).rule (.strict .pat_field)) ?_
      intro _ w3 u3 n3 i3 h3
      vred
      exact ve_done _ _
    · exact key _ _ _
  · exact key _ _ _

theorem ve_recordPatEntry (H : Stops c e) :
    Ve c e recordPatEntry ⟨w, u, n, i, o⟩ (Begun [.nt .patField] w) False := by
  unfold recordPatEntry
  vred
  split
  · rename_i h
    rw [ve_at_eq]
    have : (kind0 w == .DOTDOT) = false := by rw [show kind0 w = .DOT by simpa using h]; rfl
    rw [this]
    vred
    exact ve_recordPatField H
  · split
    · rw [← bind_pure_prog (errorBlock _)]
      exact ve_errorBlock _ _ (.here _)
    · exact ve_recordPatField H

theorem ve_recordPatLoop (H : Stops c e) :
    Ve c e recordPatLoopBody ⟨w, u, n, i, o⟩ (BegunList .patFields .R_BRACE w) False := by
  unfold recordPatLoopBody
  refine ve_neither _ _ _ (fun u' _ => ?_) (fun u' _ hne => ?_)
  · vred
    exact ve_done _ _
  · vred
    refine ve_seq H.shrinks (sd_recordPatEntry H.toMeets)
      (ve_sub (ve_recordPatEntry H) fun w' h => ⟨h.rule (.strict .pat_fields_one), hne⟩) ?_
    intro _ w1 u1 n1 i1 h1
    refine ve_at _ (fun u' h => ?_) (fun u' h => ?_)
    · vred
      exact H.call .recordPatLoop fun w' h' => absurd h h'.2
    · vred
      refine ve_expect _ nofun ⟨.rule (.strict .pat_fields_cons) h1.stop, hne⟩ ?_
      rintro t l1 l2 w2 u2 n2 rfl
      vred
      exact H.call .recordPatLoop fun w' h =>
        ⟨((h1.trans (.tok t l1 l2 _ rfl)).then h.1).rule (.strict .pat_fields_cons), hne⟩

theorem ve_recordPatFieldList (H : Stops c e) :
    Ve c e recordPatFieldList ⟨w, u, n, i, o⟩ (Begun [.nt .patFieldList] w) False := by
  unfold recordPatFieldList
  rw [ve_at_eq]
  refine ve_assert _ _ _ fun _ => ?_
  vred
  refine ve_bump _ nofun ?_
  rintro t l1 l2 w1 u1 n1 rfl
  have ht := Took.tok (w := w1) t l1 l2 .nil (k := .L_BRACE) rfl
  refine ve_seq H.shrinks (H.toMeets.call .recordPatLoop)
    (H.call .recordPatLoop fun w' h => .rule (.strict .pat_field_list) (ht.mid h.1)) ?_
  intro _ w2 u2 n2 i2 h2
  refine ve_expect _ nofun (.rule (.strict .pat_field_list) (ht.trans h2.1).stop) ?_
  rintro t' l1' l2' w3 u3 n3 rfl
  vred
  exact ve_done _ _

theorem ve_pathPat (H : Stops c e) (h0 : kind0 w = .IDENT) (h1 : kind1 w = .L_BRACE) :
    Ve c e pathPat ⟨w, u, n, i, o⟩ (Begun [.nt .pattern] w) False := by
  refine ve_coherent fun hw => ?_
  obtain ⟨t, l1, l2, w1, rfl⟩ := cons_of_kind0 h0 nofun
  have hb : kind0 w1 = .L_BRACE := by
    have e : l1 = .L_BRACE := h1
    rw [← hw.2.1 (by show l1 ≠ _; rw [e]; nofun)]
    exact e
  unfold pathPat
  vred
  refine ve_assert _ _ _ fun _ => ?_
  vred
  refine ve_seq H.shrinks (sd_path H.toMeets rfl) (ve_sub (ve_path H rfl) ?_) ?_
  · rintro w' ⟨_, t', w1', e1, e2⟩
    cases e1
    rw [hb] at e2
    cases e2
  intro _ w2 u2 n2 i2 h2
  obtain ⟨rfl, h3⟩ := h2.2 _ _ rfl (by rw [hb]; nofun)
  rw [ve_current, hb, if_pos (show (Kind.L_BRACE == Kind.L_BRACE) = true from rfl)]
  refine ve_seq H.shrinks (sd_recordPatFieldList H.toMeets)
    (ve_sub (ve_recordPatFieldList H) fun w' h => (h3.then h).rule (.strict .pattern_record)) ?_
  intro _ w4 u4 n4 i4 h4
  vred
  exact ve_done _ _

theorem ve_patternRest (H : Stops c e) :
    Ve c e (patternRest (kind0 w)) ⟨w, u, n, i, o⟩ (Begun [.nt .pattern] w) False := by
  refine ve_coherent fun hw => ?_
  unfold patternRest
  split
  · rename_i h
    have h : kind0 w = .WILDCARD := by simpa using h
    obtain ⟨t, l1, l2, w1, rfl⟩ := cons_of_kind0 h nofun
    exact absurd rfl hw.1.2.1
  · split
    · exact ve_tuplePat H
    · exact ve_errRecover' _ _ (.here _)

theorem ve_pattern (H : Stops c e) : Ve c e patternBody ⟨w, u, n, i, o⟩ (Begun [.nt .pattern] w) False := by
  have ident : ∀ u, Ve c e identPat ⟨w, u, n, i, o⟩ (Begun [.nt .pattern] w) False :=
    fun u => ve_sub (ve_identPat H) fun w' h => h.rule (.strict .pattern_ident)
  unfold patternBody
  vred
  split
  · exact ident _
  · split
    · rename_i h0
      vred
      split
      · rename_i h1
        exact ve_pathPat H (by simpa using h0) (by simpa using h1)
      · exact ident _
    · split
      · rename_i h
        have : (kind0 w == .DOTDOT) = false := by rw [show kind0 w = .DOT by simpa using h]; rfl
        rw [ve_at_eq, this]
        vred
        exact ve_patternRest H
      · exact ve_patternRest H

end

end Verif.Parser
