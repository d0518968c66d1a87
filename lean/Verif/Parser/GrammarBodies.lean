import Verif.Parser.GrammarOk

set_option autoImplicit false

/-! The check for expressions and items, and for all loops and recursive functions. -/

namespace Verif.Parser

open Kind

variable {k : Kind} {nx : Option Kind} {op : List (Marker × Bool)} {la : Option Completed} {cr : Nat}

/-! expressions.rs -/

theorem ok_argLoopBody {Q : Unit → Ctx → Prop} (hk : k.isTrivia = false)
    (hc : 29 ≤ cr) (h : Keep op cr 29 Q) : Ok argLoopBody ⟨k, nx, op, la, cr⟩ Q := by
  unfold argLoopBody
  oka

macro_rules | `(tactic| okr) => `(tactic| okk ok_argLoopBody)

theorem ok_argList {Q : Unit → Ctx → Prop} (hc : 10 ≤ cr)
    (h : Keep op (cr + 100) 0 Q) : Ok argList ⟨L_PAREN, nx, op, la, cr⟩ Q := by
  unfold argList
  oka

macro_rules | `(tactic| okr) => `(tactic| okt ok_argList)

theorem ok_callExpr {q : Completed} {Q : Completed → Ctx → Prop} (hc : 1 ≤ cr)
    (h : KeepC op (cr + 100) 0 Q) : Ok (callExpr q) ⟨L_PAREN, nx, op, some q, cr⟩ Q := by
  unfold callExpr
  oka

macro_rules | `(tactic| okr) => `(tactic| oktc ok_callExpr)

theorem ok_fieldExpr {q : Completed} {Q : Completed → Ctx → Prop} (hc : 1 ≤ cr)
    (h : KeepC op (cr + 100) 0 Q) : Ok (fieldExpr q) ⟨DOT, nx, op, some q, cr⟩ Q := by
  unfold fieldExpr
  oka

macro_rules | `(tactic| okr) => `(tactic| oktc ok_fieldExpr)

/-- A call of the loop for calls and field accesses returns the node completed last. -/
theorem ok_callPostfix {q : Completed} {Q : Completed → Ctx → Prop} (hk : k.isTrivia = false)
    (hc : 2 ≤ cr) (h : KeepC op cr 2 Q) :
    Ok (call (.postfixLoop q)) ⟨k, nx, op, some q, cr⟩ Q := by
  refine ok_call (f := .postfixLoop q) hc ⟨hk, rfl⟩ ?_
  intro r k' nx' la' cr' hp hcr
  have hl : la' = some r := hp.2
  subst hl
  exact h _ _ _ _ hp.1 hcr

macro_rules | `(tactic| okr) => `(tactic| okc ok_callPostfix)

theorem ok_postfixLoopBody {q : Completed} {Q : Completed → Ctx → Prop} (hk : k.isTrivia = false)
    (hc : 1 ≤ cr) (h : KeepC op cr 1 Q) :
    Ok (postfixLoopBody q) ⟨k, nx, op, some q, cr⟩ Q := by
  unfold postfixLoopBody
  oka

theorem ok_lhsExpr {Q : Option Completed → Ctx → Prop} (hk : k.isTrivia = false) (hc : 24 ≤ cr)
    (h : KeepC op cr 24 fun r => Q (some r)) : Ok lhsExpr ⟨k, nx, op, la, cr⟩ Q := by
  unfold lhsExpr
  refine ok_bind (ok_current ?_)
  refine ok_ite (fun hb => ?_) (fun hb => ?_)
  · have hne : k ≠ EOF := by rintro rfl; cases hb
    refine ok_bind (ok_start hk (by omega) fun m => ?_)
    refine ok_bind (ok_bumpAny (by omega) (fun h => absurd h hne) fun _ y hy _ => ?_)
    oka
  · refine ok_bind (ok_atomExpr hk (by omega) ?_)
    intro r k' nx' cr' hk' hcr'
    simp only
    oka

theorem ok_opTable : (opTable k).1 = 0 ∨ ((opTable k).2 = k ∧ k ≠ EOF) := by
  unfold opTable
  split <;> simp

theorem ok_exprBpLoopBody {bp : Nat} (hbp : 1 ≤ bp) {q : Completed} {Q : Completed → Ctx → Prop}
    (hk : k.isTrivia = false) (hc : 2 ≤ cr) (h : Keep op cr 2 Q) :
    Ok (exprBpLoopBody bp q) ⟨k, nx, op, some q, cr⟩ Q := by
  unfold exprBpLoopBody currentOp
  refine ok_bind (ok_bind (ok_current (ok_pure ?_)))
  have hop := ok_opTable (k := k)
  generalize opTable k = o at hop
  obtain ⟨obp, o⟩ := o
  simp only at hop ⊢
  refine ok_ite (fun _ => ?_) (fun hlt => ?_)
  · oka
  · rcases hop with rfl | ⟨rfl, hne⟩
    · omega
    · refine ok_bind (ok_precede hk (by omega) fun m => ?_)
      refine ok_bind (ok_bump hne (by omega) fun y hy _ => ?_)
      refine ok_bind (ok_call' (f := .exprBp (obp + 1)) (by simp only [cost]; omega)
        ⟨hy, by omega⟩ ?_)
      intro _ k' nx' la' cr' hk' hcr'
      simp only [cost] at hcr'
      refine ok_bind (ok_complete hk' (by decide) (by omega) fun r => ?_)
      refine ok_call' (f := .exprBpLoop bp r) (by simp only [cost]; omega) ⟨hk', hbp, rfl⟩ ?_
      intro r' k'' nx'' la'' cr'' hk'' hcr''
      simp only [cost] at hcr''
      exact h _ _ _ _ _ hk'' (by omega)

theorem ok_exprBpBody {bp : Nat} (hbp : 1 ≤ bp) {Q : Option Completed → Ctx → Prop}
    (hk : k.isTrivia = false) (hc : 29 ≤ cr) (h : Keep op cr 29 Q) :
    Ok (exprBpBody bp) ⟨k, nx, op, la, cr⟩ Q := by
  unfold exprBpBody
  refine ok_bind (ok_lhsExpr hk (by omega) ?_)
  intro r k' nx' cr' hk' hcr'
  simp only
  refine ok_bind (ok_call' (f := .exprBpLoop bp r) (by simp only [cost]; omega) ⟨hk', hbp, rfl⟩ ?_)
  intro _ _ _ _ _ _ hcall
  simp only [cost] at hcall
  oka

theorem ok_semi {s : StmtWithSemi} {Q : Unit → Ctx → Prop} (hk : k.isTrivia = false)
    (hc : 5 ≤ cr) (h : Keep op cr 5 Q) : Ok (semi s) ⟨k, nx, op, la, cr⟩ Q := by
  unfold semi
  cases s <;> simp only <;> oka

macro_rules | `(tactic| okr) => `(tactic| okk ok_semi)

theorem ok_letStmt {m : Marker} {s : StmtWithSemi} {Q : Unit → Ctx → Prop} (hc : 5 ≤ cr)
    (h : Keep op cr 5 Q) : Ok (letStmt m s) ⟨LET_KW, nx, (m, false) :: op, la, cr⟩ Q := by
  unfold letStmt
  oka

macro_rules | `(tactic| okr) => `(tactic| okt ok_letStmt)

theorem ok_stmtBody {s : StmtWithSemi} {Q : Unit → Ctx → Prop} (hk : k.isTrivia = false)
    (hc : 29 ≤ cr) (h : Keep op cr 29 Q) : Ok (stmtBody s) ⟨k, nx, op, la, cr⟩ Q := by
  unfold stmtBody
  oka

macro_rules | `(tactic| okr) => `(tactic| okk ok_stmtBody)

theorem ok_exprBlockLoopBody {Q : Unit → Ctx → Prop} (hk : k.isTrivia = false)
    (hc : 29 ≤ cr) (h : Keep op cr 29 Q) : Ok exprBlockLoopBody ⟨k, nx, op, la, cr⟩ Q := by
  unfold exprBlockLoopBody
  oka

macro_rules | `(tactic| okr) => `(tactic| okk ok_exprBlockLoopBody)

/-! items/adt.rs -/

theorem ok_recordField {Q : Unit → Ctx → Prop} (hk : k.isTrivia = false)
    (hc : 10 ≤ cr) (h : Keep op cr 10 Q) : Ok recordField ⟨k, nx, op, la, cr⟩ Q := by
  unfold recordField
  oka

macro_rules | `(tactic| okr) => `(tactic| okk ok_recordField)

theorem ok_recordFieldLoopBody {Q : Unit → Ctx → Prop} (hk : k.isTrivia = false)
    (hc : 29 ≤ cr) (h : Keep op cr 29 Q) : Ok recordFieldLoopBody ⟨k, nx, op, la, cr⟩ Q := by
  unfold recordFieldLoopBody
  oka

macro_rules | `(tactic| okr) => `(tactic| okk ok_recordFieldLoopBody)

theorem ok_recordFieldList {Q : Unit → Ctx → Prop} (hc : 5 ≤ cr)
    (h : Keep op cr 5 Q) : Ok recordFieldList ⟨L_BRACE, nx, op, la, cr⟩ Q := by
  unfold recordFieldList
  oka

macro_rules | `(tactic| okr) => `(tactic| okt ok_recordFieldList)

theorem ok_structDef {m : Marker} {Q : Unit → Ctx → Prop} (hc : 5 ≤ cr)
    (h : Keep op cr 5 Q) : Ok (structDef m) ⟨STRUCT_KW, nx, (m, false) :: op, la, cr⟩ Q := by
  unfold structDef
  oka

macro_rules | `(tactic| okr) => `(tactic| okt ok_structDef)

/-! items.rs -/

theorem ok_optRetType {Q : Unit → Ctx → Prop} (hk : k.isTrivia = false)
    (hc : 5 ≤ cr) (h : Keep op cr 5 Q) : Ok optRetType ⟨k, nx, op, la, cr⟩ Q := by
  unfold optRetType
  oka

macro_rules | `(tactic| okr) => `(tactic| okk ok_optRetType)

theorem ok_functionDef {m : Marker} {Q : Unit → Ctx → Prop} (hc : 5 ≤ cr)
    (h : Keep op cr 5 Q) : Ok (functionDef m) ⟨FUN_KW, nx, (m, false) :: op, la, cr⟩ Q := by
  unfold functionDef
  oka

macro_rules | `(tactic| okr) => `(tactic| okt ok_functionDef)

theorem ok_optItem {m : Marker} {Q : Unit → Ctx → Prop} (hk : k.isTrivia = false)
    (hc : 6 ≤ cr) (h : Keep op cr 6 Q) : Ok (optItem m) ⟨k, nx, (m, false) :: op, la, cr⟩ Q := by
  unfold optItem
  oka

macro_rules | `(tactic| okr) => `(tactic| okk ok_optItem)

theorem ok_item {Q : Unit → Ctx → Prop} (hk : k.isTrivia = false)
    (hc : 10 ≤ cr) (h : Keep op cr 10 Q) : Ok item ⟨k, nx, op, la, cr⟩ Q := by
  unfold item
  oka

macro_rules | `(tactic| okr) => `(tactic| okk ok_item)

theorem ok_itemLoopBody {Q : Unit → Ctx → Prop} (hk : k.isTrivia = false)
    (hc : 29 ≤ cr) (h : Keep op cr 29 Q) : Ok itemLoopBody ⟨k, nx, op, la, cr⟩ Q := by
  unfold itemLoopBody
  oka

macro_rules | `(tactic| okr) => `(tactic| okk ok_itemLoopBody)

theorem ok_itemList {Q : Unit → Ctx → Prop} (hc : 5 ≤ cr)
    (h : Keep op cr 5 Q) : Ok itemList ⟨L_BRACE, nx, op, la, cr⟩ Q := by
  unfold itemList
  oka

macro_rules | `(tactic| okr) => `(tactic| okt ok_itemList)

theorem ok_addressIdentR {ts : TokenSet} {Q : Unit → Ctx → Prop} (hk : k.isTrivia = false)
    (hc : 8 ≤ cr) (h : Keep op cr 8 Q) : Ok (addressIdentR ts) ⟨k, nx, op, la, cr⟩ Q := by
  unfold addressIdentR
  oka

macro_rules | `(tactic| okr) => `(tactic| okk ok_addressIdentR)

/-- Before `::` the address is just the current token, whatever it is. -/
theorem ok_addressIdentR_colon {Q : Unit → Ctx → Prop} (hk : k.isTrivia = false)
    (hne : k ≠ EOF) (hc : 8 ≤ cr)
    (h : ∀ nx' la' cr', cr ≤ cr' + 8 → Q () ⟨COLON_COLON, nx', op, la', cr'⟩) :
    Ok (addressIdentR (TokenSet.new [COLON_COLON])) ⟨k, some COLON_COLON, op, la, cr⟩ Q := by
  have hset : ∀ x : Kind, ((TokenSet.new [COLON_COLON]).union (TokenSet.new [EOF])).contains x = true ↔
      x = COLON_COLON ∨ x = EOF := by
    intro x
    rw [TokenSet.contains_union, TokenSet.contains_new, TokenSet.contains_new]
    simp
  unfold addressIdentR
  refine ok_bind (ok_start hk (by omega) fun m => ?_)
  refine ok_bind (ok_bumpAddress hk (by omega) (fun y hy hz cr' hcr => ?_) (fun cr' hcr => ?_))
  · have := hz _ rfl rfl
    subst this
    simp only [Bool.not_true, Bool.false_eq_true, ↓reduceIte]
    refine ok_bind (ok_complete hy (by decide) (by omega) fun r => ok_pure (h _ _ _ (by omega)))
  · simp only [Bool.not_false, ↓reduceIte]
    refine ok_bind (ok_errorAndSkipUntil hk (by omega) ?_)
    intro r k' nx' cr'' hk' hcr' hs
    have : k' = COLON_COLON := by
      cases hc : ((TokenSet.new [COLON_COLON]).union (TokenSet.new [EOF])).contains k with
      | true =>
        rw [hs.1 hc]
        exact ((hset k).1 hc).resolve_right hne
      | false => exact hs.2 hc _ rfl rfl ((hset _).2 (.inl rfl))
    subst this
    refine ok_bind (ok_complete hk' (by decide) (by omega) fun r => ok_pure (h _ _ _ (by omega)))

theorem ok_itemListOrSemi {Q : Unit → Ctx → Prop} (hk : k.isTrivia = false)
    (hc : 6 ≤ cr) (h : Keep op cr 6 Q) : Ok itemListOrSemi ⟨k, nx, op, la, cr⟩ Q := by
  unfold itemListOrSemi
  oka

macro_rules | `(tactic| okr) => `(tactic| okk ok_itemListOrSemi)

theorem ok_moduleDef {Q : Unit → Ctx → Prop} (hk : k.isTrivia = false)
    (hc : 10 ≤ cr) (h : Keep op cr 10 Q) : Ok moduleDef ⟨k, nx, op, la, cr⟩ Q := by
  unfold moduleDef
  refine ok_bind (ok_start hk (by omega) fun m => ?_)
  refine ok_bind (ok_at (by omega) (fun hm => ?_) (fun _ => rfl))
  subst hm
  refine ok_bind (ok_assert rfl ?_)
  refine ok_bind (ok_bump (by decide) (by omega) fun y hy _ => ?_)
  refine ok_bind (ok_nthAt1 (by omega) (fun hne => ?_) (fun z => ?_))
  · refine ok_if_t (ok_bind ?_)
    refine (ok_addressIdentR_colon hy (fun h => by cases hne h) (by omega) ?_)
    intro _ _ _ _
    oka
  · oka

macro_rules | `(tactic| okr) => `(tactic| okk ok_moduleDef)

theorem ok_addressItemLoopBody {Q : Unit → Ctx → Prop} (hk : k.isTrivia = false)
    (hc : 29 ≤ cr) (h : Keep op cr 29 Q) : Ok addressItemLoopBody ⟨k, nx, op, la, cr⟩ Q := by
  unfold addressItemLoopBody
  oka

macro_rules | `(tactic| okr) => `(tactic| okk ok_addressItemLoopBody)

theorem ok_addressItemList {Q : Unit → Ctx → Prop} (hc : 5 ≤ cr)
    (h : Keep op cr 5 Q) : Ok addressItemList ⟨L_BRACE, nx, op, la, cr⟩ Q := by
  unfold addressItemList
  oka

macro_rules | `(tactic| okr) => `(tactic| okt ok_addressItemList)

theorem ok_addressDef {Q : Unit → Ctx → Prop} (hc : 10 ≤ cr)
    (h : Keep op cr 10 Q) : Ok addressDef ⟨ADDRESS_KW, nx, op, la, cr⟩ Q := by
  unfold addressDef
  oka

macro_rules | `(tactic| okr) => `(tactic| okt ok_addressDef)

theorem ok_scriptDef {Q : Unit → Ctx → Prop} (hc : 10 ≤ cr)
    (h : Keep op cr 10 Q) : Ok scriptDef ⟨SCRIPT_KW, nx, op, la, cr⟩ Q := by
  unfold scriptDef
  oka

macro_rules | `(tactic| okr) => `(tactic| okt ok_scriptDef)

/-! grammar.rs, parser.rs -/

theorem ok_rootLoopBody {Q : Unit → Ctx → Prop} (hc : 29 ≤ cr)
    (h : ∀ nx' la' cr', cr ≤ cr' + 29 → Q () ⟨EOF, nx', op, la', cr'⟩) :
    Ok rootLoopBody ⟨k, nx, op, la, cr⟩ Q := by
  have again : ∀ k nx la cr', cr + 1 ≤ cr' →
      Ok (call .rootLoop) ⟨k, nx, op, la, cr'⟩ Q := by
    intro k nx la cr' hcr
    refine ok_call (f := .rootLoop) (by simp only [cost]; omega) trivial ?_
    intro _ k' nx' la' cr'' hp hcr'
    simp only [cost] at hcr'
    have : k' = EOF := hp.2
    subst this
    exact h _ _ _ (by omega)
  unfold rootLoopBody
  refine ok_bind (ok_at (by omega) (fun he => ?_) (fun hne => ?_))
  · subst he
    exact ok_pure (h _ _ _ (by omega))
  refine ok_if_nf ?_
  refine ok_bind (ok_at (by omega) (fun hk => ?_) (fun _ => ?_))
  · subst hk
    refine ok_if_t (ok_bind (ok_moduleDef rfl (by omega) ?_))
    intro _ _ _ _ _ _ _
    exact again _ _ _ _ (by omega)
  refine ok_if_f ?_
  refine ok_bind (ok_at (by omega) (fun hk => ?_) (fun _ => ?_))
  · subst hk
    refine ok_if_t (ok_bind (ok_scriptDef (by omega) ?_))
    intro _ _ _ _ _ _ _
    exact again _ _ _ _ (by omega)
  refine ok_if_f ?_
  refine ok_bind (ok_at (by omega) (fun hk => ?_) (fun _ => ?_))
  · subst hk
    refine ok_if_t (ok_bind (ok_addressDef (by omega) ?_))
    intro _ _ _ _ _ _ _
    exact again _ _ _ _ (by omega)
  refine ok_if_f (ok_bind (ok_current ?_))
  refine ok_ite (fun _ => ?_) (fun ht => ?_)
  · refine ok_bind (ok_bumpAny (by omega) (fun he => absurd he hne) (fun _ y hy _ => ?_))
    exact again _ _ _ _ (by omega)
  · refine ok_bind (ok_error (by simpa using ht) (by omega) ?_)
    exact again _ _ _ _ (by omega)

theorem ok_skipUntilBody {ts : TokenSet} (hts : ts.contains EOF = true) {Q : Unit → Ctx → Prop}
    (hk : k.isTrivia = false) (hc : 1 ≤ cr)
    (h : ∀ k' nx' la' cr', Post (.skipUntil ts) ⟨k, nx, op, la, cr⟩ () ⟨k', nx', op, la', cr'⟩ →
      cr ≤ cr' + 1 → Q () ⟨k', nx', op, la', cr'⟩) :
    Ok (skipUntilBody ts) ⟨k, nx, op, la, cr⟩ Q := by
  unfold skipUntilBody
  refine ok_bind (ok_current ?_)
  refine ok_ite (fun hin => ?_) (fun hout => ?_)
  · exact ok_pure (h _ _ _ _ ⟨hk, hin, fun _ => rfl, fun hf => by rw [hin] at hf; cases hf⟩ (by omega))
  · have hne : k ≠ EOF := by rintro rfl; exact hout hts
    refine ok_bind (ok_bumpAny (by omega) (fun he => absurd he hne) (fun _ y hy hz => ?_))
    refine ok_call (f := .skipUntil ts) (by simp only [cost]; omega) ⟨hy, hts⟩ ?_
    intro _ k' nx' la' cr' hp hcr
    simp only [cost] at hcr
    obtain ⟨h1, h2, h3, h4⟩ := hp
    refine h _ _ _ _ ⟨h1, h2, fun hin => absurd hin hout, fun _ z hz1 hz2 hz3 => ?_⟩ (by omega)
    have := hz z hz1 hz2
    subst this
    exact h3 hz3

/-! Everything together. -/

theorem bodyOk_keep {f : Fn} {n : Nat} (hcost : cost f = n + 1)
    (hp : ∀ c, Pre f c → c.cur.isTrivia = false)
    (hpost : ∀ c r k' nx' la' cr', Kind.isTrivia k' = false → Post f c r ⟨k', nx', [], la', cr'⟩)
    (h : ∀ k nx la cr (Q : f.Res → Ctx → Prop), Pre f ⟨k, nx, [], la, cr⟩ → n ≤ cr →
      Keep [] cr n Q → Ok (body f) ⟨k, nx, [], la, cr⟩ Q) : BodyOk body f := by
  rintro ⟨k, nx, op, la, cr⟩ hpre hop hcr
  simp only at hop hcr
  subst hop
  refine h _ _ _ _ _ hpre (by omega) ?_
  intro r k' nx' la' cr' hk' hcr'
  exact ⟨hpost _ _ _ _ _ _ hk', rfl, by simp only; omega⟩

/-- The functions of the grammar that only have to be called at a non-trivia token. -/
macro "simple_body" t:term : tactic => `(tactic|
  exact bodyOk_keep (n := 29) rfl (fun _ h => h) (fun _ _ _ _ _ _ h => ⟨h, trivial⟩)
    (fun _ _ _ _ _ hk hc h => $t hk hc h))

/-- Every function of the grammar passes the check. -/
theorem grammar_ok (f : Fn) : BodyOk body f := by
  cases f with
  | skipUntil ts =>
    rintro ⟨k, nx, op, la, cr⟩ ⟨h1, h2⟩ hop hcr
    simp only [cost] at hop hcr h1
    subst hop
    refine ok_skipUntilBody h2 h1 (by omega) ?_
    intro k' nx' la' cr' hp hcr'
    exact ⟨hp, rfl, by simp only [cost]; omega⟩
  | rootLoop =>
    rintro ⟨k, nx, op, la, cr⟩ _ hop hcr
    simp only [cost] at hop hcr
    subst hop
    refine ok_rootLoopBody (by omega) ?_
    intro nx' la' cr' hcr'
    exact ⟨⟨rfl, rfl⟩, rfl, by simp only [cost]; omega⟩
  | addressItemLoop => simple_body ok_addressItemLoopBody
  | itemLoop => simple_body ok_itemLoopBody
  | recordFieldLoop => simple_body ok_recordFieldLoopBody
  | paramLoop => simple_body ok_paramLoopBody
  | type_ => simple_body ok_typeBody
  | pathLoop qual =>
    exact bodyOk_keep (n := 29) rfl (fun _ h => h.1) (fun _ _ _ _ _ _ h => ⟨h, trivial⟩)
      (fun _ _ _ _ _ hk hc h => by
        obtain ⟨h1, h2⟩ := hk
        simp only at h2
        subst h2
        exact ok_pathLoopBody h1 hc h)
  | genericParamLoop => simple_body ok_genericParamLoopBody
  | boundsLoop => simple_body ok_boundsLoopBody
  | pattern => simple_body ok_patternBody
  | tuplePatLoop a b c => simple_body ok_tuplePatLoopBody
  | recordPatLoop => simple_body ok_recordPatLoopBody
  | blockLoop => simple_body ok_blockLoopBody
  | exprBlockLoop => simple_body ok_exprBlockLoopBody
  | stmt s => simple_body ok_stmtBody
  | exprBp bp =>
    exact bodyOk_keep (n := 29) rfl (fun _ h => h.1) (fun _ _ _ _ _ _ h => ⟨h, trivial⟩)
      (fun _ _ _ _ _ hk hc h => ok_exprBpBody hk.2 hk.1 hc h)
  | exprBpLoop bp lhs =>
    exact bodyOk_keep (n := 2) rfl (fun _ h => h.1) (fun _ _ _ _ _ _ h => ⟨h, trivial⟩)
      (fun _ _ _ _ _ hk hc h => by
        obtain ⟨h1, h2, h3⟩ := hk
        simp only at h3
        subst h3
        exact ok_exprBpLoopBody h2 h1 hc h)
  | postfixLoop lhs =>
    rintro ⟨k, nx, op, la, cr⟩ ⟨h1, h2⟩ hop hcr
    simp only [cost] at hop hcr h1 h2
    subst hop h2
    refine ok_postfixLoopBody h1 (by omega) ?_
    intro r k' nx' cr' hk' hcr'
    exact ⟨⟨hk', rfl⟩, rfl, by simp only [cost]; omega⟩
  | argLoop => simple_body ok_argLoopBody
  | recordExprLoop => simple_body ok_recordExprLoopBody
  | parenLoop => simple_body ok_parenLoopBody

end Verif.Parser
