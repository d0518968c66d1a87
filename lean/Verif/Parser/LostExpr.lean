import Verif.Parser.LostAtoms

set_option autoImplicit false

/-! The check of `Verif.Parser.LostCheck` for expressions. -/

namespace Verif.Parser

open Kind

variable {k : Kind} {c : Nat}

/-! expressions.rs -/

theorem ck_argList (hc : 2 ≤ c) :
    Ck argList k c fun _ _ c' => Paid (True) c c' 7 0 := by
  unfold argList
  cka
  ckend

macro_rules | `(tactic| ckr) => `(tactic| cku ck_argList)

theorem ck_callExpr {q : Completed} (hc : 3 ≤ c) :
    Ck (callExpr q) k c fun _ _ c' => Paid (True) c c' 8 0 := by
  unfold callExpr
  cka
  ckend

macro_rules | `(tactic| ckr) => `(tactic| cku ck_callExpr)

theorem ck_fieldExpr {q : Completed} (hc : 2 ≤ c) :
    Ck (fieldExpr q) k c fun _ _ c' => Paid (True) c c' 5 0 := by
  unfold fieldExpr
  cka
  ckend

macro_rules | `(tactic| ckr) => `(tactic| cku ck_fieldExpr)

theorem ck_postfix {q : Completed} (hc : 3 ≤ c) :
    Ck (postfixLoopBody q) k c fun _ y c' => (k = SEMICOLON → y = k) ∧ c ≤ c' := by
  unfold postfixLoopBody
  cka
  all_goals (refine ⟨fun _ => ?_, ?_⟩ <;> first | omega | rfl | (simp_all; done))

theorem ck_lhsExpr (hc : 3 ≤ c) :
    Ck lhsExpr k c fun _ _ c' => Paid (k ≠ R_PAREN ∧ k ≠ EOF ∧ k ≠ SEMICOLON) c c' 5 0 := by
  unfold lhsExpr
  cka
  ckend

macro_rules | `(tactic| ckr) => `(tactic| cku ck_lhsExpr)

/-- At `;` nothing is consumed. -/
theorem ck_atomExpr_semi {Q : Option Completed → Kind → Nat → Prop} (hc : 3 ≤ c)
    (h : ∀ r c', c ≤ c' → Q (some r) SEMICOLON c') : Ck atomExpr SEMICOLON c Q := by
  have h1 : (TokenSet.new [SEMICOLON, R_PAREN]).contains SEMICOLON = true := by decide
  have h2 : LITERAL_FIRST.contains SEMICOLON = false := by decide
  unfold atomExpr
  cka
  all_goals first
    | exact h _ _ ‹_›
    | (exfalso; simp_all; done)

theorem ck_lhsExpr_semi {Q : Option Completed → Kind → Nat → Prop} (hc : 3 ≤ c)
    (h : ∀ r c', c ≤ c' → Q (some r) SEMICOLON c') : Ck lhsExpr SEMICOLON c Q := by
  unfold lhsExpr
  refine ck_bind (ck_current (ck_ite (fun hcond => ?_) (fun _ => ?_)))
  · cases hcond
  refine ck_bind (ck_atomExpr_semi hc fun r c' hc' => ?_)
  refine ck_bind (ck_call (by simp only [need]; omega) fun r' y c2 hp => ?_)
  obtain ⟨hy, hp⟩ := hp
  rw [hy rfl]
  refine ck_pure (h _ _ ?_)
  have := hp.2 (by simp [eats])
  simp only [idleCost] at this
  omega

theorem opTable_ne : (opTable k).2 ≠ EOF := by
  have : ∀ k : Kind, (opTable k).2 ≠ EOF := by intro k; cases k <;> decide
  exact this k

theorem ck_exprBpLoop {bp : Nat} {q : Completed} (hc : 1 ≤ c) :
    Ck (exprBpLoopBody bp q) k c fun _ y c' => (k = SEMICOLON → y = k) ∧ c ≤ c' := by
  unfold exprBpLoopBody currentOp
  refine ck_bind (ck_bind (ck_current (ck_pure ?_)))
  have h1 := @opTable_ne k
  have h2 : k = SEMICOLON → opTable k = (0, ATSIGN) := by intro h; subst h; rfl
  generalize opTable k = e at h1 h2
  obtain ⟨opBp, op⟩ := e
  refine ck_ite (fun _ => ck_pure ⟨fun _ => rfl, Nat.le_refl _⟩) (fun _ => ?_)
  refine ck_bind (ck_precede fun m => ck_bind (ck_bump h1 hc fun hk y => ?_))
  have hns : k ≠ SEMICOLON := by
    intro h
    have := h2 h
    simp only [Prod.mk.injEq] at this
    rw [hk, this.2] at h
    cases h
  refine ck_bind (ck_call (by simp only [need]; omega) fun r y' c' hp => ?_)
  refine ck_bind (ck_complete fun q' => ck_call (by
    simp only [need]
    rcases hp.2.cases with ⟨_, h⟩ | ⟨_, h⟩ <;> simp only [eatCost, idleCost] at h <;> omega) fun r y2 c2 hp2 => ?_)
  refine ⟨fun h => absurd h hns, ?_⟩
  have h3 := hp2.2.2 (by simp [eats])
  simp only [idleCost] at h3
  rcases hp.2.cases with ⟨_, h⟩ | ⟨_, h⟩ <;> simp only [eatCost, idleCost] at h <;> omega

theorem ck_exprBp {bp : Nat} (hc : 3 ≤ c) :
    Ck (exprBpBody bp) k c fun _ y c' => Called (.exprBp bp) k c y c' := by
  unfold exprBpBody
  by_cases hk : k = SEMICOLON
  · subst hk
    refine ck_bind (ck_lhsExpr_semi hc fun r c' hc' => ?_)
    refine ck_bind (ck_call (by simp only [need]; omega) fun r' y c2 hp => ck_pure ?_)
    obtain ⟨hy, hp⟩ := hp
    have := hp.2 (by simp [eats])
    simp only [idleCost] at this
    refine ⟨fun _ => hy rfl, fun h => absurd rfl h.2.2, fun _ => ?_⟩
    simp only [idleCost]
    omega
  · refine ck_bind (ck_mono (ck_lhsExpr hc) fun r y c' hp => ?_)
    cases r with
    | none => exact ck_pure ⟨fun h => absurd h hk, hp⟩
    | some r =>
      refine ck_bind (ck_call ?_ fun r' y c2 hp2 => ck_pure ⟨fun h => absurd h hk, ?_⟩)
      · simp only [need]
        rcases hp.cases with ⟨_, h⟩ | ⟨_, h⟩ <;> omega
      · have h3 := hp2.2.2 (by simp [eats])
        simp only [idleCost] at h3
        refine ⟨fun h => ?_, fun h => ?_⟩
        · have := hp.1 h
          simp only [eatCost]
          omega
        · have := hp.2 h
          simp only [idleCost]
          omega

/-- An expression, with what is known at `;`. -/
theorem ck_expr' {Q : Option Completed → Kind → Nat → Prop} (hc : 3 ≤ c)
    (hs : k = SEMICOLON → ∀ r c', c ≤ c' → Q r SEMICOLON c')
    (hn : k = R_PAREN ∨ k = EOF → ∀ r y c', c ≤ c' → Q r y c')
    (he : k ≠ R_PAREN ∧ k ≠ EOF ∧ k ≠ SEMICOLON → ∀ r y c', c + GAIN ≤ c' + 5 → Q r y c') : Ck expr k c Q := by
  refine ck_call hc fun r y c' hp => ?_
  obtain ⟨hy, hp⟩ := hp
  by_cases h1 : k = SEMICOLON
  · rw [hy h1, h1]
    have := hp.2 (by simp [eats, h1])
    exact hs h1 r c' this
  · by_cases h2 : k = R_PAREN ∨ k = EOF
    · have := hp.2 (by simp only [eats]; rcases h2 with h | h <;> simp [h])
      exact hn h2 r y c' this
    · simp only [not_or] at h2
      have h3 : k ≠ R_PAREN ∧ k ≠ EOF ∧ k ≠ SEMICOLON := ⟨h2.1, h2.2, h1⟩
      exact he h3 r y c' (hp.1 h3)

theorem ck_semi {w : StmtWithSemi} (hc : 2 ≤ c) :
    Ck (semi w) k c fun _ _ c' => Paid (w ≠ .no ∧ k = SEMICOLON) c c' 2 1 := by
  unfold semi
  cka
  all_goals (refine ⟨fun _ => ?_, fun _ => ?_⟩ <;> ckf)

macro_rules | `(tactic| ckr) => `(tactic| cku ck_semi)

theorem ck_letStmt {m : Marker} {w : StmtWithSemi} (hc : 2 ≤ c) :
    Ck (letStmt m w) k c fun _ _ c' => Paid (True) c c' 6 0 := by
  unfold letStmt
  cka
  ckend

macro_rules | `(tactic| ckr) => `(tactic| cku ck_letStmt)

theorem ck_stmt {w : StmtWithSemi} (hc : 4 ≤ c) :
    Ck (stmtBody w) k c fun _ _ c' => Paid (w ≠ .no ∧ k ≠ R_PAREN ∧ k ≠ EOF) c c' 7 2 := by
  unfold stmtBody
  refine ck_bind (ck_start fun m => ck_bind (ck_at (by omega) (fun hk => ?_) (fun hk => ?_)))
  · refine ck_bind (ck_mono (ck_letStmt (by omega)) fun _ _ c' hp => ck_pure ?_)
    have := hp.1 trivial
    refine ⟨fun _ => ?_, fun _ => ?_⟩ <;> omega
  · refine ck_bind (ck_expr' (by omega) (fun hs r c' hc' => ?_) (fun hn r y c' hc' => ?_) (fun he r y c' hc' => ?_))
    all_goals
      refine ck_bind (ck_mono (ck_semi (by omega)) fun _ _ c2 hp2 => ck_bind (ck_complete fun _ => ck_pure ?_))
      rcases hp2.cases with ⟨h1, h2⟩ | ⟨h1, h2⟩ <;> refine ⟨fun h3 => ?_, fun h3 => ?_⟩ <;> first
        | omega
        | (exfalso; simp_all; done)

end Verif.Parser
