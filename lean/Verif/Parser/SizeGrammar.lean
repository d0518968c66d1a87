import Verif.Parser.Lost

set_option autoImplicit false

/-!
What the parser builds is paid for by the tokens it consumes and the lookups it makes.  `Cost p k d` says that the
program `p`, started at a token of kind `k`, makes at most `d` nodes and messages more than it can pay for, when every
lookup and every token pays for `PAY` of them.
-/

namespace Verif.Parser

open Kind

scoped notation "PAY" => (3 : Int)

/-- The nodes and messages of a forest. -/
def Forest.weight : Forest → Nat
  | .nil => 0
  | .tok i _ => i.weight
  | .err i _ => i.weight + 1
  | .tomb i => i.weight
  | .node i _ pre kids => i.weight + pre.weight + kids.weight + 1

/-- The same with the open nodes. -/
def stackWeight : List (Forest × Forest) → Nat
  | [] => 0
  | (pre, items) :: rest => stackWeight rest + pre.weight + items.weight + 1

def TState.weight (s : TState) : Nat := stackWeight s.outer + s.items.weight

/-- What a call cannot pay for. -/
def debt : Fn → Int
  | .type_ => 2
  | .pattern => 2
  | .exprBp _ => 2
  | .boundsLoop => 1
  | _ => 0

def Cost {α : Type} : Prog α → Kind → Int → Prop
  | .pure _, _, d => 0 ≤ d
  | .panic _, _, _ => True
  | .current κ, k, d => Cost (κ k) k d
  | .currentText κ, k, d => ∀ t, Cost (κ t) k d
  | .nth _ κ, k, d => ∀ x, Cost (κ x) k (d + PAY)
  | .doBump _ κ, k, d => ∀ y, Cost κ y (if k = EOF then d else d + PAY)
  | .start κ, k, d => ∀ m, Cost (κ m) k (d - 1)
  | .complete _ _ κ, k, d => ∀ r, Cost (κ r) k d
  | .abandon _ κ, k, d => Cost κ k d
  | .precede _ κ, k, d => ∀ m, Cost (κ m) k (d - 1)
  | .error _ κ, k, d => Cost κ k (d - 1)
  | .call f κ, _, d => ∀ r y, Cost (κ r) y (d - debt f)

/-- The account before and after: what was built is at most what has been paid for and `d`. -/
def Settled (s s' : TState) (d : Int) : Prop :=
  (s'.weight : Int) + PAY * s.used + PAY * s'.toks.length ≤ s.weight + PAY * s'.used + PAY * s.toks.length + d

theorem weight_append (a b : Forest) : (a.append b).weight = a.weight + b.weight := by
  induction b with
  | nil => rfl
  | tok i k ih => exact ih
  | err i m ih => simp only [Forest.append, Forest.weight, ih]; omega
  | tomb i ih => exact ih
  | node i k pre kids h1 h2 h3 => simp only [Forest.append, Forest.weight, h1]; omega

theorem Cost.sound {α : Type} {callee : (f : Fn) → TState → Out TState f.Res}
    (hc : ∀ f s r s', callee f s = .ok r s' → Settled s s' (debt f)) (p : Prog α) {s s' : TState} {a : α} {d : Int}
    (h : Cost p (kind0 s.toks) d) (hr : run tokenLevel callee p s = .ok a s') : Settled s s' d := by
  induction p generalizing s d with
  | pure a => cases hr; simp only [Cost] at h; simp only [Settled]; omega
  | panic w => cases hr
  | current κ ih => exact ih _ h hr
  | currentText κ ih => exact ih _ (h _) hr
  | nth n κ ih =>
    have hr : (tNthLimited n s).bind (fun x s' => run tokenLevel callee (κ x) s') = .ok a s' := hr
    have key : ∀ x, run tokenLevel callee (κ x) { s with used := s.used + 1 } = .ok a s' → Settled s s' d := by
      intro x hx
      have := ih x (s := { s with used := s.used + 1 }) (h x) hx
      simp only [Settled, TState.weight] at this ⊢
      omega
    unfold tNthLimited at hr
    split at hr
    · split at hr
      · unfold tNth at hr
        split at hr
        · exact key _ hr
        · exact key _ hr
        · exact key _ hr
        · cases hr
      · cases hr
    · cases hr
  | doBump kd κ ih =>
    have hr : run tokenLevel callee κ { s with toks := s.toks.tail, n := s.n + 1, items := .tok s.items kd } = .ok a s' := hr
    have := ih (h _) hr
    simp only [Settled, TState.weight, Forest.weight] at this ⊢
    cases ht : s.toks with
    | nil =>
      rw [ht] at this
      simp only [kind0, if_true, List.tail_nil] at this
      omega
    | cons x xs =>
      rw [ht] at this
      simp only [List.tail_cons, List.length_cons] at this ⊢
      split at this <;> omega
  | start κ ih =>
    have hr : run tokenLevel callee (κ ⟨s.n⟩)
      { s with n := s.n + 1, items := .nil, outer := (.nil, s.items) :: s.outer } = .ok a s' := hr
    have := ih _ (s := { s with n := s.n + 1, items := .nil, outer := (.nil, s.items) :: s.outer }) (h _) hr
    simp only [Settled, TState.weight, Forest.weight, stackWeight] at this ⊢
    omega
  | complete m kd κ ih =>
    have hr : (tComplete m kd s).bind (fun x s' => run tokenLevel callee (κ x) s') = .ok a s' := hr
    obtain ⟨toks, u, n, i, o⟩ := s
    cases o with
    | nil => cases hr
    | cons x rest =>
      obtain ⟨pre, items⟩ := x
      have := ih _ (s := ⟨toks, u, n + 1, .node items kd pre i, rest⟩) (h _) hr
      simp only [Settled, TState.weight, Forest.weight, stackWeight] at this ⊢
      omega
  | abandon m κ ih =>
    have hr : (tAbandon s).bind (fun _ s' => run tokenLevel callee κ s') = .ok a s' := hr
    obtain ⟨toks, u, n, i, o⟩ := s
    cases o with
    | nil => cases hr
    | cons x rest =>
      obtain ⟨pre, items⟩ := x
      unfold tAbandon at hr
      simp only at hr
      split at hr
      · have := ih (s := ⟨toks, u, n - 1, items, rest⟩) h hr
        simp only [Settled, TState.weight, stackWeight] at this ⊢
        omega
      · have := ih (s := ⟨toks, u, n, (Forest.tomb items).append i, rest⟩) h hr
        simp only [Settled, TState.weight, Forest.weight, stackWeight, weight_append] at this ⊢
        omega
  | precede q κ ih =>
    have hr : (tPrecede s).bind (fun x s' => run tokenLevel callee (κ x) s') = .ok a s' := hr
    obtain ⟨toks, u, n, i, o⟩ := s
    cases i with
    | node init kd pre kids =>
      have := ih _ (s := ⟨toks, u, n + 1, .nil, (.node .nil kd pre kids, init) :: o⟩) (h _) hr
      simp only [Settled, TState.weight, Forest.weight, stackWeight] at this ⊢
      omega
    | nil => cases hr
    | tok _ _ => cases hr
    | err _ _ => cases hr
    | tomb _ => cases hr
  | error msg κ ih =>
    have hr : run tokenLevel callee κ { s with n := s.n + 1, items := .err s.items msg } = .ok a s' := hr
    have := ih (s := { s with n := s.n + 1, items := .err s.items msg }) h hr
    simp only [Settled, TState.weight, Forest.weight] at this ⊢
    omega
  | call f κ ih =>
    have hr : (callee f s).bind (fun x s' => run tokenLevel callee (κ x) s') = .ok a s' := hr
    cases he : callee f s with
    | ok r s1 =>
      rw [he] at hr
      have h1 := hc f s r s1 he
      have h2 := ih r (h r _) hr
      simp only [Settled] at h1 h2 ⊢
      omega
    | panic w => rw [he] at hr; cases hr
    | outOfFuel => rw [he] at hr; cases hr

/-! Rules. -/

variable {α β : Type} {k : Kind} {d d' e : Int}

theorem cost_mono {p : Prog α} (h : Cost p k d) (hd : d ≤ d') : Cost p k d' := by
  induction p generalizing k d d' with
  | pure a => simp only [Cost] at h ⊢; omega
  | panic w => trivial
  | current κ ih => exact ih _ h hd
  | currentText κ ih => exact fun t => ih _ (h t) hd
  | nth n κ ih => exact fun x => ih _ (h x) (by omega)
  | doBump kd κ ih => exact fun y => ih (h y) (by split <;> omega)
  | start κ ih => exact fun m => ih _ (h m) (by omega)
  | complete m kd κ ih => exact fun r => ih _ (h r) hd
  | abandon m κ ih => exact ih h hd
  | precede q κ ih => exact fun m => ih _ (h m) (by omega)
  | error msg κ ih => exact ih h (by omega)
  | call f κ ih => exact fun r y => ih _ (h r y) (by omega)

theorem cost_bind {p : Prog α} {f : α → Prog β} (h : Cost p k e) (hf : ∀ a y, Cost (f a) y (d - e)) :
    Cost (p >>= f) k d := by
  show Cost (p.bind f) k d
  induction p generalizing k d e with
  | pure a => simp only [Cost] at h; exact cost_mono (hf a k) (by omega)
  | panic w => trivial
  | current κ ih => exact ih _ h hf
  | currentText κ ih => exact fun t => ih _ (h t) hf
  | nth n κ ih => exact fun x => ih _ (h x) fun a y => cost_mono (hf a y) (by omega)
  | doBump kd κ ih =>
    refine fun y => ih (h y) fun a y => cost_mono (hf a y) ?_
    split <;> omega
  | start κ ih => exact fun m => ih _ (h m) fun a y => cost_mono (hf a y) (by omega)
  | complete m kd κ ih => exact fun r => ih _ (h r) hf
  | abandon m κ ih => exact ih h hf
  | precede q κ ih => exact fun m => ih _ (h m) fun a y => cost_mono (hf a y) (by omega)
  | error msg κ ih => exact ih h fun a y => cost_mono (hf a y) (by omega)
  | call g κ ih => exact fun r y => ih _ (h r y) fun a y => cost_mono (hf a y) (by omega)

theorem cost_pure {a : α} (h : 0 ≤ d) : Cost (pure a : Prog α) k d := h
theorem cost_current {f : Kind → Prog β} (h : Cost (f k) k d) : Cost (current >>= f) k d := h
theorem cost_currentText : Cost currentText k 0 := fun _ => Int.le_refl _
theorem cost_nth (n : Nat) : Cost (nth n) k (-3) := fun _ => by simp [Cost]
theorem cost_doBump (kd : Kind) : Cost (doBump kd) k 0 := fun _ => by simp only [Cost]; split <;> decide
theorem cost_start : Cost start k 1 := fun _ => by simp [Cost]
theorem cost_error (msg : String) : Cost (error msg) k 1 := by simp [Cost, error]
theorem cost_call (f : Fn) : Cost (call f) k (debt f) := fun _ _ => by simp [Cost]
theorem cost_complete (m : Marker) (kd : Kind) : Cost (m.complete kd) k 0 := fun _ => by simp [Cost]
theorem cost_abandon (m : Marker) : Cost m.abandon k 0 := by simp [Cost, Marker.abandon]
theorem cost_precede (c : Completed) : Cost c.precede k 1 := fun _ => by simp [Cost]
theorem cost_assert (b : Bool) (w : String) : Cost (assert b w) k 0 := by
  unfold assert; split
  · exact Int.le_refl _
  · trivial

/-- A rule for the first operation of a program. -/
syntax "costr" : tactic
macro_rules | `(tactic| costr) => `(tactic| with_reducible exact cost_currentText)
macro_rules | `(tactic| costr) => `(tactic| with_reducible exact cost_nth _)
macro_rules | `(tactic| costr) => `(tactic| with_reducible exact cost_doBump _)
macro_rules | `(tactic| costr) => `(tactic| with_reducible exact cost_start)
macro_rules | `(tactic| costr) => `(tactic| with_reducible exact cost_error _)
macro_rules | `(tactic| costr) => `(tactic| with_reducible exact cost_call _)
macro_rules | `(tactic| costr) => `(tactic| with_reducible exact cost_complete _ _)
macro_rules | `(tactic| costr) => `(tactic| with_reducible exact cost_abandon _)
macro_rules | `(tactic| costr) => `(tactic| with_reducible exact cost_precede _)
macro_rules | `(tactic| costr) => `(tactic| with_reducible exact cost_assert _ _)

/-- The rules one after the other. -/
macro "costs" : tactic => `(tactic| repeat' (first
  | exact absurd rfl ‹¬ true = true›
  | exact absurd ‹false = true› Bool.false_ne_true
  | ((with_reducible apply cost_pure); (try simp only [debt]); decide)
  | (with_reducible apply cost_current)
  | ((with_reducible apply cost_bind); costr; intro _ _)
  | (apply cost_mono; costr; (try simp only [debt]); decide)
  | split
  | (simp only [bind_assoc_prog, pure_bind_prog, if_true, if_false, Bool.not_true, Bool.not_false, neither])))

theorem cost_nthAt (n : Nat) (kind : Kind) : Cost (nthAt n kind) k (-3) := by
  unfold nthAt
  costs
macro_rules | `(tactic| costr) => `(tactic| with_reducible exact cost_nthAt _ _)

theorem cost_at_ (kind : Kind) : Cost (at_ kind) k (-3) := by
  unfold at_
  costs
macro_rules | `(tactic| costr) => `(tactic| with_reducible exact cost_at_ _)

theorem cost_eat (kind : Kind) : Cost (eat kind) k (-3) := by
  unfold eat
  costs
macro_rules | `(tactic| costr) => `(tactic| with_reducible exact cost_eat _)

theorem cost_atTs (kinds : TokenSet) : Cost (atTs kinds) k 0 := by
  unfold atTs
  costs
macro_rules | `(tactic| costr) => `(tactic| with_reducible exact cost_atTs _)

theorem cost_bump (kind : Kind) : Cost (bump kind) k (-3) := by
  unfold bump
  costs
macro_rules | `(tactic| costr) => `(tactic| with_reducible exact cost_bump _)

theorem cost_bumpAny : Cost bumpAny k 0 := by
  unfold bumpAny
  costs
macro_rules | `(tactic| costr) => `(tactic| with_reducible exact cost_bumpAny)

theorem cost_bumpRemap (kind : Kind) : Cost (bumpRemap kind) k (-3) := by
  unfold bumpRemap
  costs
macro_rules | `(tactic| costr) => `(tactic| with_reducible exact cost_bumpRemap _)

theorem cost_expect (kind : Kind) : Cost (expect kind) k (-2) := by
  unfold expect
  costs
macro_rules | `(tactic| costr) => `(tactic| with_reducible exact cost_expect _)

theorem cost_errRecover (message : String) (recovery : TokenSet) : Cost (errRecover message recovery) k 2 := by
  unfold errRecover
  costs
macro_rules | `(tactic| costr) => `(tactic| with_reducible exact cost_errRecover _ _)

theorem cost_errAndBump (message : String) : Cost (errAndBump message) k 2 := by
  unfold errAndBump
  costs
macro_rules | `(tactic| costr) => `(tactic| with_reducible exact cost_errAndBump _)

theorem cost_errorAndSkipUntil (message : String) (endTokens : TokenSet) : Cost (errorAndSkipUntil message endTokens) k 2 := by
  unfold errorAndSkipUntil
  costs
macro_rules | `(tactic| costr) => `(tactic| with_reducible exact cost_errorAndSkipUntil _ _)

theorem cost_skipUntilBody (endTokens : TokenSet) : Cost (skipUntilBody endTokens) k 0 := by
  unfold skipUntilBody
  costs
macro_rules | `(tactic| costr) => `(tactic| with_reducible exact cost_skipUntilBody _)

theorem cost_nameR (recovery : TokenSet) : Cost (nameR recovery) k (-1) := by
  unfold nameR
  costs
macro_rules | `(tactic| costr) => `(tactic| with_reducible exact cost_nameR _)

theorem cost_name : Cost name k (-1) := by
  unfold name
  costs
macro_rules | `(tactic| costr) => `(tactic| with_reducible exact cost_name)

theorem cost_nameRef : Cost nameRef k (-1) := by
  unfold nameRef
  costs
macro_rules | `(tactic| costr) => `(tactic| with_reducible exact cost_nameRef)

theorem cost_isPathStart : Cost isPathStart k 0 := by
  unfold isPathStart
  costs
macro_rules | `(tactic| costr) => `(tactic| with_reducible exact cost_isPathStart)

theorem cost_pathSegment_true : Cost (pathSegment true) k (0) := by
  unfold pathSegment
  costs
macro_rules | `(tactic| costr) => `(tactic| with_reducible exact cost_pathSegment_true)

theorem cost_pathSegment_false : Cost (pathSegment false) k (3) := by
  unfold pathSegment
  costs
macro_rules | `(tactic| costr) => `(tactic| with_reducible exact cost_pathSegment_false)

theorem cost_path : Cost path k 1 := by
  unfold path
  costs
macro_rules | `(tactic| costr) => `(tactic| with_reducible exact cost_path)

theorem cost_pathLoopBody (qual : Completed) : Cost (pathLoopBody qual) k 0 := by
  unfold pathLoopBody
  costs
macro_rules | `(tactic| costr) => `(tactic| with_reducible exact cost_pathLoopBody _)

theorem cost_refType : Cost refType k 0 := by
  unfold refType
  costs
macro_rules | `(tactic| costr) => `(tactic| with_reducible exact cost_refType)

theorem cost_pathType : Cost pathType k 2 := by
  unfold pathType
  costs
macro_rules | `(tactic| costr) => `(tactic| with_reducible exact cost_pathType)

theorem cost_typeBody : Cost typeBody k 2 := by
  unfold typeBody
  costs
macro_rules | `(tactic| costr) => `(tactic| with_reducible exact cost_typeBody)

theorem cost_ascription : Cost ascription k 0 := by
  unfold ascription
  costs
macro_rules | `(tactic| costr) => `(tactic| with_reducible exact cost_ascription)

theorem cost_typeBound : Cost typeBound k 1 := by
  unfold typeBound
  costs
macro_rules | `(tactic| costr) => `(tactic| with_reducible exact cost_typeBound)

theorem cost_boundsLoopBody : Cost boundsLoopBody k 1 := by
  unfold boundsLoopBody
  costs
macro_rules | `(tactic| costr) => `(tactic| with_reducible exact cost_boundsLoopBody)

theorem cost_bounds : Cost bounds k 0 := by
  unfold bounds
  costs
macro_rules | `(tactic| costr) => `(tactic| with_reducible exact cost_bounds)

theorem cost_typeParam (m : Marker) : Cost (typeParam m) k 0 := by
  unfold typeParam
  costs
macro_rules | `(tactic| costr) => `(tactic| with_reducible exact cost_typeParam _)

theorem cost_genericParam : Cost genericParam k 3 := by
  unfold genericParam
  costs
macro_rules | `(tactic| costr) => `(tactic| with_reducible exact cost_genericParam)

theorem cost_genericParamLoopBody : Cost genericParamLoopBody k 0 := by
  unfold genericParamLoopBody
  costs
macro_rules | `(tactic| costr) => `(tactic| with_reducible exact cost_genericParamLoopBody)

theorem cost_genericParamList : Cost genericParamList k 0 := by
  unfold genericParamList
  costs
macro_rules | `(tactic| costr) => `(tactic| with_reducible exact cost_genericParamList)

theorem cost_optGenericParamList : Cost optGenericParamList k 0 := by
  unfold optGenericParamList
  costs
macro_rules | `(tactic| costr) => `(tactic| with_reducible exact cost_optGenericParamList)

theorem cost_param (m : Marker) : Cost (param m) k 0 := by
  unfold param
  costs
macro_rules | `(tactic| costr) => `(tactic| with_reducible exact cost_param _)

theorem cost_paramLoopBody : Cost paramLoopBody k 0 := by
  unfold paramLoopBody
  costs
macro_rules | `(tactic| costr) => `(tactic| with_reducible exact cost_paramLoopBody)

theorem cost_paramList : Cost paramList k 0 := by
  unfold paramList
  costs
macro_rules | `(tactic| costr) => `(tactic| with_reducible exact cost_paramList)

theorem cost_identPat : Cost identPat k (-3) := by
  unfold identPat
  costs
macro_rules | `(tactic| costr) => `(tactic| with_reducible exact cost_identPat)

theorem cost_restPat : Cost restPat k 0 := by
  unfold restPat
  costs
macro_rules | `(tactic| costr) => `(tactic| with_reducible exact cost_restPat)

theorem cost_wildcardPat : Cost wildcardPat k 0 := by
  unfold wildcardPat
  costs
macro_rules | `(tactic| costr) => `(tactic| with_reducible exact cost_wildcardPat)

theorem cost_tuplePatLoopBody (hasComma hasPat hasRest : Bool) : Cost (tuplePatLoopBody hasComma hasPat hasRest) k 0 := by
  unfold tuplePatLoopBody
  costs
macro_rules | `(tactic| costr) => `(tactic| with_reducible exact cost_tuplePatLoopBody _ _ _)

theorem cost_tuplePat : Cost tuplePat k 0 := by
  unfold tuplePat
  costs
macro_rules | `(tactic| costr) => `(tactic| with_reducible exact cost_tuplePat)

theorem cost_errorBlock (message : String) : Cost (errorBlock message) k (-3) := by
  unfold errorBlock
  costs
macro_rules | `(tactic| costr) => `(tactic| with_reducible exact cost_errorBlock _)

theorem cost_recordPatField : Cost recordPatField k 0 := by
  unfold recordPatField
  costs
macro_rules | `(tactic| costr) => `(tactic| with_reducible exact cost_recordPatField)

theorem cost_recordPatEntry : Cost recordPatEntry k 0 := by
  unfold recordPatEntry
  costs
macro_rules | `(tactic| costr) => `(tactic| with_reducible exact cost_recordPatEntry)

theorem cost_recordPatLoopBody : Cost recordPatLoopBody k 0 := by
  unfold recordPatLoopBody
  costs
macro_rules | `(tactic| costr) => `(tactic| with_reducible exact cost_recordPatLoopBody)

theorem cost_recordPatFieldList : Cost recordPatFieldList k 0 := by
  unfold recordPatFieldList
  costs
macro_rules | `(tactic| costr) => `(tactic| with_reducible exact cost_recordPatFieldList)

theorem cost_pathPat : Cost pathPat k 2 := by
  unfold pathPat
  costs
macro_rules | `(tactic| costr) => `(tactic| with_reducible exact cost_pathPat)

theorem cost_patternRest (cur : Kind) : Cost (patternRest cur) k 2 := by
  unfold patternRest
  costs
macro_rules | `(tactic| costr) => `(tactic| with_reducible exact cost_patternRest _)

theorem cost_patternBody : Cost patternBody k 2 := by
  unfold patternBody
  costs
macro_rules | `(tactic| costr) => `(tactic| with_reducible exact cost_patternBody)

theorem cost_bumpAddress : Cost bumpAddress k 0 := by
  unfold bumpAddress
  costs
macro_rules | `(tactic| costr) => `(tactic| with_reducible exact cost_bumpAddress)

theorem cost_addressLit : Cost addressLit k 0 := by
  unfold addressLit
  costs
macro_rules | `(tactic| costr) => `(tactic| with_reducible exact cost_addressLit)

theorem cost_literal : Cost literal k 1 := by
  unfold literal
  costs
macro_rules | `(tactic| costr) => `(tactic| with_reducible exact cost_literal)

theorem cost_expr : Cost expr k 2 := by
  unfold expr
  costs
macro_rules | `(tactic| costr) => `(tactic| with_reducible exact cost_expr)

theorem cost_parenLoopBody : Cost parenLoopBody k 0 := by
  unfold parenLoopBody
  costs
macro_rules | `(tactic| costr) => `(tactic| with_reducible exact cost_parenLoopBody)

theorem cost_parenExpr : Cost parenExpr k 0 := by
  unfold parenExpr
  costs
macro_rules | `(tactic| costr) => `(tactic| with_reducible exact cost_parenExpr)

theorem cost_blockLoopBody : Cost blockLoopBody k 0 := by
  unfold blockLoopBody
  costs
macro_rules | `(tactic| costr) => `(tactic| with_reducible exact cost_blockLoopBody)

theorem cost_blockExprUnchecked : Cost blockExprUnchecked k 0 := by
  unfold blockExprUnchecked
  costs
macro_rules | `(tactic| costr) => `(tactic| with_reducible exact cost_blockExprUnchecked)

theorem cost_blockExpr : Cost blockExpr k 0 := by
  unfold blockExpr
  costs
macro_rules | `(tactic| costr) => `(tactic| with_reducible exact cost_blockExpr)

theorem cost_recordExprField : Cost recordExprField k 3 := by
  unfold recordExprField
  costs
macro_rules | `(tactic| costr) => `(tactic| with_reducible exact cost_recordExprField)

theorem cost_recordExprLoopBody : Cost recordExprLoopBody k 0 := by
  unfold recordExprLoopBody
  costs
macro_rules | `(tactic| costr) => `(tactic| with_reducible exact cost_recordExprLoopBody)

theorem cost_recordExprFieldList : Cost recordExprFieldList k 0 := by
  unfold recordExprFieldList
  costs
macro_rules | `(tactic| costr) => `(tactic| with_reducible exact cost_recordExprFieldList)

theorem cost_pathExpr : Cost pathExpr k 2 := by
  unfold pathExpr
  costs
macro_rules | `(tactic| costr) => `(tactic| with_reducible exact cost_pathExpr)

theorem cost_atomExpr : Cost atomExpr k 2 := by
  unfold atomExpr literal
  costs
macro_rules | `(tactic| costr) => `(tactic| with_reducible exact cost_atomExpr)

theorem cost_currentOp : Cost currentOp k 0 := by
  unfold currentOp
  costs
macro_rules | `(tactic| costr) => `(tactic| with_reducible exact cost_currentOp)

theorem cost_argLoopBody : Cost argLoopBody k 0 := by
  unfold argLoopBody
  costs
macro_rules | `(tactic| costr) => `(tactic| with_reducible exact cost_argLoopBody)

theorem cost_argList : Cost argList k 0 := by
  unfold argList
  costs
macro_rules | `(tactic| costr) => `(tactic| with_reducible exact cost_argList)

theorem cost_callExpr (lhs : Completed) : Cost (callExpr lhs) k 0 := by
  unfold callExpr
  costs
macro_rules | `(tactic| costr) => `(tactic| with_reducible exact cost_callExpr _)

theorem cost_fieldExpr (lhs : Completed) : Cost (fieldExpr lhs) k 0 := by
  unfold fieldExpr
  costs
macro_rules | `(tactic| costr) => `(tactic| with_reducible exact cost_fieldExpr _)

theorem cost_postfixLoopBody (lhs : Completed) : Cost (postfixLoopBody lhs) k 0 := by
  unfold postfixLoopBody
  costs
macro_rules | `(tactic| costr) => `(tactic| with_reducible exact cost_postfixLoopBody _)

/-- A token that is consumed without a lookup pays too. -/
theorem cost_bumpAny_paid (h : k ≠ EOF) : Cost bumpAny k (-3) := by
  have hb : (k == EOF) = false := by simpa using h
  show Cost (if (k == EOF) = true then _ else _) k _
  rw [hb, if_neg Bool.false_ne_true]
  intro y
  rw [if_neg h]
  exact Int.le_refl 0

theorem cost_start_bind {f : Marker → Prog β} (h : ∀ m, Cost (f m) k (d - 1)) : Cost (start >>= f) k d := h

theorem cost_lhsExpr : Cost lhsExpr k 2 := by
  unfold lhsExpr
  refine cost_current ?_
  split
  · rename_i h
    have hk : k ≠ EOF := by rintro rfl; exact absurd h (by decide)
    refine cost_start_bind fun m => cost_bind (cost_bumpAny_paid hk) fun _ _ => ?_
    costs
  · costs
macro_rules | `(tactic| costr) => `(tactic| with_reducible exact cost_lhsExpr)

theorem cost_exprBpLoopBody (bp : Nat) (lhs : Completed) : Cost (exprBpLoopBody bp lhs) k 0 := by
  unfold exprBpLoopBody
  costs
macro_rules | `(tactic| costr) => `(tactic| with_reducible exact cost_exprBpLoopBody _ _)

theorem cost_exprBpBody (bp : Nat) : Cost (exprBpBody bp) k 2 := by
  unfold exprBpBody
  costs
macro_rules | `(tactic| costr) => `(tactic| with_reducible exact cost_exprBpBody _)

theorem cost_semi (withSemi : StmtWithSemi) : Cost (semi withSemi) k 0 := by
  unfold semi
  costs
macro_rules | `(tactic| costr) => `(tactic| with_reducible exact cost_semi _)

theorem cost_letStmt (m : Marker) (withSemi : StmtWithSemi) : Cost (letStmt m withSemi) k 0 := by
  unfold letStmt
  costs
macro_rules | `(tactic| costr) => `(tactic| with_reducible exact cost_letStmt _ _)

theorem cost_stmtBody (withSemi : StmtWithSemi) : Cost (stmtBody withSemi) k 0 := by
  unfold stmtBody
  costs
macro_rules | `(tactic| costr) => `(tactic| with_reducible exact cost_stmtBody _)

theorem cost_exprBlockLoopBody : Cost exprBlockLoopBody k 0 := by
  unfold exprBlockLoopBody
  costs
macro_rules | `(tactic| costr) => `(tactic| with_reducible exact cost_exprBlockLoopBody)

theorem cost_recordField : Cost recordField k 0 := by
  unfold recordField
  costs
macro_rules | `(tactic| costr) => `(tactic| with_reducible exact cost_recordField)

theorem cost_recordFieldLoopBody : Cost recordFieldLoopBody k 0 := by
  unfold recordFieldLoopBody
  costs
macro_rules | `(tactic| costr) => `(tactic| with_reducible exact cost_recordFieldLoopBody)

theorem cost_recordFieldList : Cost recordFieldList k 0 := by
  unfold recordFieldList
  costs
macro_rules | `(tactic| costr) => `(tactic| with_reducible exact cost_recordFieldList)

theorem cost_structDef (m : Marker) : Cost (structDef m) k 0 := by
  unfold structDef
  costs
macro_rules | `(tactic| costr) => `(tactic| with_reducible exact cost_structDef _)

theorem cost_optRetType : Cost optRetType k 0 := by
  unfold optRetType
  costs
macro_rules | `(tactic| costr) => `(tactic| with_reducible exact cost_optRetType)

theorem cost_functionDef (m : Marker) : Cost (functionDef m) k 0 := by
  unfold functionDef
  costs
macro_rules | `(tactic| costr) => `(tactic| with_reducible exact cost_functionDef _)

theorem cost_optItem (m : Marker) : Cost (optItem m) k 1 := by
  unfold optItem
  costs
macro_rules | `(tactic| costr) => `(tactic| with_reducible exact cost_optItem _)

theorem cost_item : Cost item k 1 := by
  unfold item
  costs
macro_rules | `(tactic| costr) => `(tactic| with_reducible exact cost_item)

theorem cost_itemLoopBody : Cost itemLoopBody k 0 := by
  unfold itemLoopBody
  costs
macro_rules | `(tactic| costr) => `(tactic| with_reducible exact cost_itemLoopBody)

theorem cost_itemList : Cost itemList k 0 := by
  unfold itemList
  costs
macro_rules | `(tactic| costr) => `(tactic| with_reducible exact cost_itemList)

theorem cost_addressIdentR (recoveryTokens : TokenSet) : Cost (addressIdentR recoveryTokens) k 3 := by
  unfold addressIdentR
  costs
macro_rules | `(tactic| costr) => `(tactic| with_reducible exact cost_addressIdentR _)

theorem cost_itemListOrSemi : Cost itemListOrSemi k 0 := by
  unfold itemListOrSemi
  costs
macro_rules | `(tactic| costr) => `(tactic| with_reducible exact cost_itemListOrSemi)

theorem cost_moduleDef : Cost moduleDef k 0 := by
  unfold moduleDef
  costs
macro_rules | `(tactic| costr) => `(tactic| with_reducible exact cost_moduleDef)

theorem cost_addressItemLoopBody : Cost addressItemLoopBody k 0 := by
  unfold addressItemLoopBody
  costs
macro_rules | `(tactic| costr) => `(tactic| with_reducible exact cost_addressItemLoopBody)

theorem cost_addressItemList : Cost addressItemList k 0 := by
  unfold addressItemList
  costs
macro_rules | `(tactic| costr) => `(tactic| with_reducible exact cost_addressItemList)

theorem cost_addressDef : Cost addressDef k 0 := by
  unfold addressDef
  costs
macro_rules | `(tactic| costr) => `(tactic| with_reducible exact cost_addressDef)

theorem cost_scriptDef : Cost scriptDef k 0 := by
  unfold scriptDef
  costs
macro_rules | `(tactic| costr) => `(tactic| with_reducible exact cost_scriptDef)

theorem cost_rootLoopBody : Cost rootLoopBody k 0 := by
  unfold rootLoopBody
  costs
macro_rules | `(tactic| costr) => `(tactic| with_reducible exact cost_rootLoopBody)

/-- Every function of the grammar pays for what it makes, up to its debt. -/
theorem body_cost (f : Fn) : Cost (body f) k (debt f) := by
  cases f with
  | skipUntil ts => exact cost_skipUntilBody _
  | rootLoop => exact cost_rootLoopBody
  | addressItemLoop => exact cost_addressItemLoopBody
  | itemLoop => exact cost_itemLoopBody
  | recordFieldLoop => exact cost_recordFieldLoopBody
  | paramLoop => exact cost_paramLoopBody
  | type_ => exact cost_typeBody
  | pathLoop q => exact cost_pathLoopBody _
  | genericParamLoop => exact cost_genericParamLoopBody
  | boundsLoop => exact cost_boundsLoopBody
  | pattern => exact cost_patternBody
  | tuplePatLoop a b c => exact cost_tuplePatLoopBody _ _ _
  | recordPatLoop => exact cost_recordPatLoopBody
  | blockLoop => exact cost_blockLoopBody
  | exprBlockLoop => exact cost_exprBlockLoopBody
  | stmt s => exact cost_stmtBody _
  | exprBp bp => exact cost_exprBpBody _
  | exprBpLoop bp q => exact cost_exprBpLoopBody _ _
  | postfixLoop q => exact cost_postfixLoopBody _
  | argLoop => exact cost_argLoopBody
  | recordExprLoop => exact cost_recordExprLoopBody
  | parenLoop => exact cost_parenLoopBody

theorem callN_settled (n : Nat) (f : Fn) (s : TState) (r : f.Res) (s' : TState)
    (h : callN tokenLevel body n f s = .ok r s') : Settled s s' (debt f) := by
  induction n generalizing f s r s' with
  | zero => cases h
  | succ n ih => exact Cost.sound ih (body f) (body_cost f) h

/-- What a run from the beginning has built. -/
theorem root_settled {n : Nat} {s s' : TState} (h : run tokenLevel (callN tokenLevel body n) root s = .ok () s') :
    Settled s s' 1 := by
  refine Cost.sound (callN_settled n) root ?_ h
  unfold root
  costs

end Verif.Parser
