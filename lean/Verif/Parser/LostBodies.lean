import Verif.Parser.LostItems

set_option autoImplicit false
set_option linter.unusedSimpArgs false

/-! The check of `Verif.Parser.LostCheck` for loops. -/

namespace Verif.Parser

open Kind

variable {k : Kind} {c : Nat}

set_option hygiene false in
macro_rules | `(tactic| ckr) => `(tactic|
  ((with_reducible apply ck_expr' ?_ (fun hcond _ _ _ => ?_) (fun hcond _ _ _ _ => ?_) (fun hcond _ _ _ _ => ?_)); omega
   all_goals ckc hcond))

theorem type_first_cases (k : Kind) : k = IDENT ∨ k = AMP ∨ ¬ (TYPE_FIRST.contains k = true) := by
  cases k <;> first | (exact .inl rfl) | (exact .inr (.inl rfl)) | (exact .inr (.inr (by decide)))

theorem pattern_first_other (h : PATTERN_FIRST.contains k = true) :
    k ≠ L_BRACE ∧ k ≠ R_BRACE ∧ k ≠ EOF ∧ PAT_RECOVERY_SET.contains k = false := by
  have : ∀ k : Kind, PATTERN_FIRST.contains k = true →
      k ≠ L_BRACE ∧ k ≠ R_BRACE ∧ k ≠ EOF ∧ PAT_RECOVERY_SET.contains k = false := by
    intro k; cases k <;> first | (intro h; cases h; done) | (intro _; simp; decide)
  exact this k h

theorem bodyCk_paramLoop : BodyCk (.paramLoop) := by
  intro k c hc hl
  simp only [need, Lost, not_false_eq_true, List.mem_cons, List.not_mem_nil, or_false, Decidable.not_not, not_or] at hc hl
  show Ck (paramLoopBody) _ _ _
  unfold paramLoopBody
  rcases type_first_cases k with rfl | rfl | hk
  all_goals cka
  all_goals refine ⟨fun hstay => ?_, ?_⟩
  all_goals try simp only [stays] at hstay
  all_goals try exact hstay.elim
  ckend

theorem bodyCk_pathLoop {q : Completed} : BodyCk (.pathLoop q) := by
  intro k c hc hl
  simp only [need, Lost, not_false_eq_true, List.mem_cons, List.not_mem_nil, or_false, Decidable.not_not, not_or] at hc hl
  show Ck (pathLoopBody q) _ _ _
  unfold pathLoopBody
  all_goals cka
  all_goals refine ⟨fun hstay => ?_, ?_⟩
  all_goals try simp only [stays] at hstay
  all_goals try exact hstay.elim
  ckend

theorem bodyCk_genericParamLoop : BodyCk (.genericParamLoop) := by
  intro k c hc hl
  simp only [need, Lost, not_false_eq_true, List.mem_cons, List.not_mem_nil, or_false, Decidable.not_not, not_or] at hc hl
  show Ck (genericParamLoopBody) _ _ _
  unfold genericParamLoopBody
  by_cases hb1 : k = L_BRACE
  case pos => (subst hb1; unfold genericParam; cka; all_goals (refine ⟨fun h => h.elim, ?_⟩); ckend)
  by_cases hb2 : k = R_BRACE
  case pos => (subst hb2; unfold genericParam; cka; all_goals (refine ⟨fun h => h.elim, ?_⟩); ckend)
  all_goals cka
  all_goals refine ⟨fun hstay => ?_, ?_⟩
  all_goals try simp only [stays] at hstay
  all_goals try exact hstay.elim
  ckend

theorem bodyCk_boundsLoop : BodyCk (.boundsLoop) := by
  intro k c hc hl
  simp only [need, Lost, not_false_eq_true, List.mem_cons, List.not_mem_nil, or_false, Decidable.not_not, not_or] at hc hl
  show Ck (boundsLoopBody) _ _ _
  unfold boundsLoopBody
  unfold typeBound
  all_goals cka
  all_goals refine ⟨fun hstay => ?_, ?_⟩
  all_goals try simp only [stays] at hstay
  all_goals try exact hstay.elim
  ckend

theorem bodyCk_type : BodyCk (.type_) := by
  intro k c hc hl
  simp only [need, Lost, not_false_eq_true, List.mem_cons, List.not_mem_nil, or_false, Decidable.not_not, not_or] at hc hl
  show Ck (typeBody) _ _ _
  unfold typeBody
  all_goals cka
  all_goals refine ⟨fun hstay => ?_, ?_⟩
  all_goals try simp only [stays] at hstay
  all_goals try exact hstay.elim
  ckend

theorem bodyCk_recordPatLoop : BodyCk (.recordPatLoop) := by
  intro k c hc hl
  simp only [need, Lost, not_false_eq_true, List.mem_cons, List.not_mem_nil, or_false, Decidable.not_not, not_or] at hc hl
  show Ck (recordPatLoopBody) _ _ _
  unfold recordPatLoopBody
  all_goals cka
  all_goals refine ⟨fun hstay => ?_, ?_⟩
  all_goals try simp only [stays] at hstay
  all_goals try exact hstay.elim
  ckend

theorem bodyCk_tuplePatLoop {x y z : Bool} : BodyCk (.tuplePatLoop x y z) := by
  intro k c hc hl
  simp only [need, Lost, not_false_eq_true, List.mem_cons, List.not_mem_nil, or_false, Decidable.not_not, not_or] at hc hl
  show Ck (tuplePatLoopBody x y z) _ _ _
  unfold tuplePatLoopBody
  all_goals cka
  all_goals refine ⟨fun hstay => ?_, ?_⟩
  all_goals try simp only [stays] at hstay
  all_goals try exact hstay.elim
  ckend

theorem bodyCk_skipUntil {ts : TokenSet} : BodyCk (.skipUntil ts) := by
  intro k c hc hl
  show Ck (skipUntilBody ts) _ _ _
  unfold skipUntilBody
  cka
  all_goals refine ⟨fun hstay => ?_, ?_⟩
  all_goals try simp only [stays] at hstay
  all_goals try rfl
  all_goals try (simp_all; done)
  ckend

theorem bodyCk_blockLoop : BodyCk (.blockLoop) := by
  intro k c hc hl
  simp only [need, Lost, not_false_eq_true, List.mem_cons, List.not_mem_nil, or_false, Decidable.not_not, not_or] at hc hl
  show Ck (blockLoopBody) _ _ _
  unfold blockLoopBody
  all_goals cka
  all_goals refine ⟨fun hstay => ?_, ?_⟩
  all_goals try simp only [stays] at hstay
  all_goals try exact hstay.elim
  ckend

theorem bodyCk_exprBlockLoop : BodyCk (.exprBlockLoop) := by
  intro k c hc hl
  simp only [need, Lost, not_false_eq_true, List.mem_cons, List.not_mem_nil, or_false, Decidable.not_not, not_or] at hc hl
  show Ck (exprBlockLoopBody) _ _ _
  unfold exprBlockLoopBody
  all_goals cka
  all_goals refine ⟨fun hstay => ?_, ?_⟩
  all_goals try simp only [stays] at hstay
  all_goals try exact hstay.elim
  ckend

theorem bodyCk_argLoop : BodyCk (.argLoop) := by
  intro k c hc hl
  simp only [need, Lost, not_false_eq_true, List.mem_cons, List.not_mem_nil, or_false, Decidable.not_not, not_or] at hc hl
  show Ck (argLoopBody) _ _ _
  unfold argLoopBody
  all_goals cka
  all_goals refine ⟨fun hstay => ?_, ?_⟩
  all_goals try simp only [stays] at hstay
  all_goals try exact hstay.elim
  ckend

theorem bodyCk_recordExprLoop : BodyCk (.recordExprLoop) := by
  intro k c hc hl
  simp only [need, Lost, not_false_eq_true, List.mem_cons, List.not_mem_nil, or_false, Decidable.not_not, not_or] at hc hl
  show Ck (recordExprLoopBody) _ _ _
  unfold recordExprLoopBody
  all_goals cka
  all_goals refine ⟨fun hstay => ?_, ?_⟩
  all_goals try simp only [stays] at hstay
  all_goals try exact hstay.elim
  ckend

theorem bodyCk_parenLoop : BodyCk (.parenLoop) := by
  intro k c hc hl
  simp only [need, Lost, not_false_eq_true, List.mem_cons, List.not_mem_nil, or_false, Decidable.not_not, not_or] at hc hl
  show Ck (parenLoopBody) _ _ _
  unfold parenLoopBody
  all_goals cka
  all_goals refine ⟨fun hstay => ?_, ?_⟩
  all_goals try simp only [stays] at hstay
  all_goals try exact hstay.elim
  ckend

theorem bodyCk_rootLoop : BodyCk (.rootLoop) := by
  intro k c hc hl
  simp only [need, Lost, not_false_eq_true, List.mem_cons, List.not_mem_nil, or_false, Decidable.not_not, not_or] at hc hl
  show Ck (rootLoopBody) _ _ _
  unfold rootLoopBody
  have hl' : k = EOF ∨ k = MODULE_KW ∨ k = SCRIPT_KW ∨ k = ADDRESS_KW ∨ k = WHITESPACE ∨ k = COMMENT :=
    Decidable.byContradiction fun h => hl (by simpa only [not_or] using h)
  rcases hl' with rfl | rfl | rfl | rfl | rfl | rfl
  all_goals cka
  all_goals refine ⟨fun hstay => ?_, ?_⟩
  all_goals try simp only [stays] at hstay
  all_goals try exact hstay.elim
  ckend

theorem bodyCk_addressItemLoop : BodyCk (.addressItemLoop) := by
  intro k c hc hl
  simp only [need, Lost, not_false_eq_true, List.mem_cons, List.not_mem_nil, or_false, Decidable.not_not, not_or] at hc hl
  show Ck (addressItemLoopBody) _ _ _
  unfold addressItemLoopBody
  have hl' : k = R_BRACE ∨ k = EOF ∨ k = MODULE_KW :=
    Decidable.byContradiction fun h => hl (by simpa only [not_or] using h)
  rcases hl' with rfl | rfl | rfl
  all_goals cka
  all_goals refine ⟨fun hstay => ?_, ?_⟩
  all_goals try simp only [stays] at hstay
  all_goals try exact hstay.elim
  ckend

theorem bodyCk_itemLoop : BodyCk (.itemLoop) := by
  intro k c hc hl
  simp only [need, Lost, not_false_eq_true, List.mem_cons, List.not_mem_nil, or_false, Decidable.not_not, not_or] at hc hl
  show Ck (itemLoopBody) _ _ _
  unfold itemLoopBody
  all_goals cka
  all_goals refine ⟨fun hstay => ?_, ?_⟩
  all_goals try simp only [stays] at hstay
  all_goals try exact hstay.elim
  ckend

theorem bodyCk_recordFieldLoop : BodyCk (.recordFieldLoop) := by
  intro k c hc hl
  simp only [need, Lost, not_false_eq_true, List.mem_cons, List.not_mem_nil, or_false, Decidable.not_not, not_or] at hc hl
  show Ck (recordFieldLoopBody) _ _ _
  unfold recordFieldLoopBody
  all_goals cka
  all_goals refine ⟨fun hstay => ?_, ?_⟩
  all_goals try simp only [stays] at hstay
  all_goals try exact hstay.elim
  ckend

theorem bodyCk_pattern : BodyCk .pattern := by
  intro k c hc hl
  have hp := @pattern_first_other k
  simp only [need] at hc
  show Ck patternBody _ _ _
  unfold patternBody patternRest
  cka
  all_goals refine ⟨fun hstay => hstay.elim, ?_⟩
  ckend

theorem bodyCk_postfixLoop {q : Completed} : BodyCk (.postfixLoop q) := by
  intro k c hc hl
  exact ck_mono (ck_postfix hc) fun _ _ c' h => ⟨h.1, fun h => h.elim, fun _ => h.2⟩

theorem bodyCk_exprBpLoop {bp : Nat} {q : Completed} : BodyCk (.exprBpLoop bp q) := by
  intro k c hc hl
  exact ck_mono (ck_exprBpLoop hc) fun _ _ c' h => ⟨h.1, fun h => h.elim, fun _ => h.2⟩

theorem bodyCk_exprBp {bp : Nat} : BodyCk (.exprBp bp) := by
  intro k c hc hl
  exact ck_exprBp hc

theorem bodyCk_stmt {w : StmtWithSemi} : BodyCk (.stmt w) := by
  intro k c hc hl
  refine ck_mono (ck_stmt hc) fun _ _ c' h => ⟨fun h => h.elim, fun he => h.1 ?_, fun he => ?_⟩
  · cases w with
    | no => exact he.elim
    | yes => exact ⟨by simp, he⟩
    | optional => exact ⟨by simp, he⟩
  · by_cases hw : w ≠ .no ∧ k ≠ R_PAREN ∧ k ≠ EOF
    · have := h.1 hw
      simp only [idleCost]
      omega
    · exact h.2 hw

/-- Every function of the grammar passes the check. -/
theorem bodies_ck (f : Fn) : BodyCk f := by
  cases f with
  | skipUntil _ => exact bodyCk_skipUntil
  | rootLoop => exact bodyCk_rootLoop
  | addressItemLoop => exact bodyCk_addressItemLoop
  | itemLoop => exact bodyCk_itemLoop
  | recordFieldLoop => exact bodyCk_recordFieldLoop
  | paramLoop => exact bodyCk_paramLoop
  | type_ => exact bodyCk_type
  | pathLoop _ => exact bodyCk_pathLoop
  | genericParamLoop => exact bodyCk_genericParamLoop
  | boundsLoop => exact bodyCk_boundsLoop
  | pattern => exact bodyCk_pattern
  | tuplePatLoop _ _ _ => exact bodyCk_tuplePatLoop
  | recordPatLoop => exact bodyCk_recordPatLoop
  | blockLoop => exact bodyCk_blockLoop
  | exprBlockLoop => exact bodyCk_exprBlockLoop
  | stmt _ => exact bodyCk_stmt
  | exprBp _ => exact bodyCk_exprBp
  | exprBpLoop _ _ => exact bodyCk_exprBpLoop
  | postfixLoop _ => exact bodyCk_postfixLoop
  | argLoop => exact bodyCk_argLoop
  | recordExprLoop => exact bodyCk_recordExprLoop
  | parenLoop => exact bodyCk_parenLoop

end Verif.Parser
