import Verif.Parser.ErrorEvents

set_option autoImplicit false

/-! Every function of the grammar reports an error in each node that it completes as `ERROR`. -/

namespace Verif.Parser

open Kind

theorem fair_assert (b : Bool) (what : String) : Fair (assert b what) := by
  unfold assert
  fair

macro_rules | `(tactic| fairr) => `(tactic| with_reducible exact fair_assert _ _)

theorem fair_nthAt (n : Nat) (kind : Kind) : Fair (nthAt n kind) := by
  unfold nthAt
  fair

macro_rules | `(tactic| fairr) => `(tactic| with_reducible exact fair_nthAt _ _)

theorem fair_at_ (kind : Kind) : Fair (at_ kind) := by
  unfold at_
  fair

macro_rules | `(tactic| fairr) => `(tactic| with_reducible exact fair_at_ _)

theorem fair_eat (kind : Kind) : Fair (eat kind) := by
  unfold eat
  fair

macro_rules | `(tactic| fairr) => `(tactic| with_reducible exact fair_eat _)

theorem fair_atTs (kinds : TokenSet) : Fair (atTs kinds) := by
  unfold atTs
  fair

macro_rules | `(tactic| fairr) => `(tactic| with_reducible exact fair_atTs _)

theorem fair_bump (kind : Kind) : Fair (bump kind) := by
  unfold bump
  fair

macro_rules | `(tactic| fairr) => `(tactic| with_reducible exact fair_bump _)

theorem fair_bumpAny : Fair bumpAny := by
  unfold bumpAny
  fair

macro_rules | `(tactic| fairr) => `(tactic| with_reducible exact fair_bumpAny)

theorem fair_bumpRemap (kind : Kind) : Fair (bumpRemap kind) := by
  unfold bumpRemap
  fair

macro_rules | `(tactic| fairr) => `(tactic| with_reducible exact fair_bumpRemap _)

theorem fair_expect (kind : Kind) : Fair (expect kind) := by
  unfold expect
  fair

macro_rules | `(tactic| fairr) => `(tactic| with_reducible exact fair_expect _)

theorem fair_errRecover (message : String) (recovery : TokenSet) : Fair (errRecover message recovery) := by
  unfold errRecover
  refine fair_bind fair_current fun cur => fair_ite (by fair) (fair_bind (fair_atTs _) fun b => fair_ite (by fair) ?_)
  refine fair_started fun m => started_error ?_
  exact fair_reported fair_bumpAny fun _ => fairIf_bind (fair_completeError m) fun _ => fair_pure _

macro_rules | `(tactic| fairr) => `(tactic| with_reducible exact fair_errRecover _ _)

theorem fair_errAndBump (message : String) : Fair (errAndBump message) := by
  unfold errAndBump
  fair

macro_rules | `(tactic| fairr) => `(tactic| with_reducible exact fair_errAndBump _)

theorem fair_errorAndSkipUntil (message : String) (endTokens : TokenSet) :
    Fair (errorAndSkipUntil message endTokens) := by
  unfold errorAndSkipUntil
  refine fair_started fun m => started_error ?_
  exact fair_reported (fair_call _) fun _ => fair_completeError m

macro_rules | `(tactic| fairr) => `(tactic| with_reducible exact fair_errorAndSkipUntil _ _)

theorem fair_skipUntilBody (endTokens : TokenSet) : Fair (skipUntilBody endTokens) := by
  unfold skipUntilBody
  fair

macro_rules | `(tactic| fairr) => `(tactic| with_reducible exact fair_skipUntilBody _)

theorem fair_neither (a b : Kind) : Fair (neither a b) := by
  unfold neither
  fair

macro_rules | `(tactic| fairr) => `(tactic| with_reducible exact fair_neither _ _)

theorem fair_nameR (recovery : TokenSet) : Fair (nameR recovery) := by
  unfold nameR
  fair

macro_rules | `(tactic| fairr) => `(tactic| with_reducible exact fair_nameR _)

theorem fair_name : Fair name := by
  unfold name
  fair

macro_rules | `(tactic| fairr) => `(tactic| with_reducible exact fair_name)

theorem fair_nameRef : Fair nameRef := by
  unfold nameRef
  fair

macro_rules | `(tactic| fairr) => `(tactic| with_reducible exact fair_nameRef)

theorem fair_isPathStart : Fair isPathStart := by
  unfold isPathStart
  fair

macro_rules | `(tactic| fairr) => `(tactic| with_reducible exact fair_isPathStart)

theorem fair_pathSegment (first : Bool) : Fair (pathSegment first) := by
  unfold pathSegment
  fair

macro_rules | `(tactic| fairr) => `(tactic| with_reducible exact fair_pathSegment _)

theorem fair_path : Fair path := by
  unfold path
  fair

macro_rules | `(tactic| fairr) => `(tactic| with_reducible exact fair_path)

theorem fair_pathLoopBody (qual : Completed) : Fair (pathLoopBody qual) := by
  unfold pathLoopBody
  fair

macro_rules | `(tactic| fairr) => `(tactic| with_reducible exact fair_pathLoopBody _)

theorem fair_refType : Fair refType := by
  unfold refType
  fair

macro_rules | `(tactic| fairr) => `(tactic| with_reducible exact fair_refType)

theorem fair_pathType : Fair pathType := by
  unfold pathType
  fair

macro_rules | `(tactic| fairr) => `(tactic| with_reducible exact fair_pathType)

theorem fair_typeBody : Fair typeBody := by
  unfold typeBody
  fair

macro_rules | `(tactic| fairr) => `(tactic| with_reducible exact fair_typeBody)

theorem fair_ascription : Fair ascription := by
  unfold ascription
  fair

macro_rules | `(tactic| fairr) => `(tactic| with_reducible exact fair_ascription)

theorem fair_typeBound : Fair typeBound := by
  unfold typeBound
  fair

macro_rules | `(tactic| fairr) => `(tactic| with_reducible exact fair_typeBound)

theorem fair_boundsLoopBody : Fair boundsLoopBody := by
  unfold boundsLoopBody
  fair

macro_rules | `(tactic| fairr) => `(tactic| with_reducible exact fair_boundsLoopBody)

theorem fair_bounds : Fair bounds := by
  unfold bounds
  fair

macro_rules | `(tactic| fairr) => `(tactic| with_reducible exact fair_bounds)

theorem fair_typeParam (m : Marker) : Fair (typeParam m) := by
  unfold typeParam
  fair

macro_rules | `(tactic| fairr) => `(tactic| with_reducible exact fair_typeParam _)

theorem fair_genericParam : Fair genericParam := by
  unfold genericParam
  fair

macro_rules | `(tactic| fairr) => `(tactic| with_reducible exact fair_genericParam)

theorem fair_genericParamLoopBody : Fair genericParamLoopBody := by
  unfold genericParamLoopBody
  fair

macro_rules | `(tactic| fairr) => `(tactic| with_reducible exact fair_genericParamLoopBody)

theorem fair_genericParamList : Fair genericParamList := by
  unfold genericParamList
  fair

macro_rules | `(tactic| fairr) => `(tactic| with_reducible exact fair_genericParamList)

theorem fair_optGenericParamList : Fair optGenericParamList := by
  unfold optGenericParamList
  fair

macro_rules | `(tactic| fairr) => `(tactic| with_reducible exact fair_optGenericParamList)

theorem fair_param (m : Marker) : Fair (param m) := by
  unfold param
  fair

macro_rules | `(tactic| fairr) => `(tactic| with_reducible exact fair_param _)

theorem fair_paramLoopBody : Fair paramLoopBody := by
  unfold paramLoopBody
  fair

macro_rules | `(tactic| fairr) => `(tactic| with_reducible exact fair_paramLoopBody)

theorem fair_paramList : Fair paramList := by
  unfold paramList
  fair

macro_rules | `(tactic| fairr) => `(tactic| with_reducible exact fair_paramList)

theorem fair_identPat : Fair identPat := by
  unfold identPat
  fair

macro_rules | `(tactic| fairr) => `(tactic| with_reducible exact fair_identPat)

theorem fair_restPat : Fair restPat := by
  unfold restPat
  fair

macro_rules | `(tactic| fairr) => `(tactic| with_reducible exact fair_restPat)

theorem fair_wildcardPat : Fair wildcardPat := by
  unfold wildcardPat
  fair

macro_rules | `(tactic| fairr) => `(tactic| with_reducible exact fair_wildcardPat)

theorem fair_tuplePatLoopBody (hasComma hasPat hasRest : Bool) : Fair (tuplePatLoopBody hasComma hasPat hasRest) := by
  unfold tuplePatLoopBody
  fair

macro_rules | `(tactic| fairr) => `(tactic| with_reducible exact fair_tuplePatLoopBody _ _ _)

theorem fair_tuplePat : Fair tuplePat := by
  unfold tuplePat
  fair

macro_rules | `(tactic| fairr) => `(tactic| with_reducible exact fair_tuplePat)

theorem fair_errorBlock (message : String) : Fair (errorBlock message) := by
  unfold errorBlock
  refine fair_bind (fair_at_ _) fun b => fair_bind (fair_assert _ _) fun _ => fair_started fun m => started_error ?_
  refine fair_reported (fair_bump _) fun _ => fair_reported (fair_call _) fun _ => fair_reported (fair_eat _) fun _ => ?_
  exact fairIf_bind (fair_completeError m) fun _ => fair_pure _

macro_rules | `(tactic| fairr) => `(tactic| with_reducible exact fair_errorBlock _)

theorem fair_recordPatField : Fair recordPatField := by
  unfold recordPatField
  fair

macro_rules | `(tactic| fairr) => `(tactic| with_reducible exact fair_recordPatField)

theorem fair_recordPatEntry : Fair recordPatEntry := by
  unfold recordPatEntry
  fair

macro_rules | `(tactic| fairr) => `(tactic| with_reducible exact fair_recordPatEntry)

theorem fair_recordPatLoopBody : Fair recordPatLoopBody := by
  unfold recordPatLoopBody
  fair

macro_rules | `(tactic| fairr) => `(tactic| with_reducible exact fair_recordPatLoopBody)

theorem fair_recordPatFieldList : Fair recordPatFieldList := by
  unfold recordPatFieldList
  fair

macro_rules | `(tactic| fairr) => `(tactic| with_reducible exact fair_recordPatFieldList)

theorem fair_pathPat : Fair pathPat := by
  unfold pathPat
  fair

macro_rules | `(tactic| fairr) => `(tactic| with_reducible exact fair_pathPat)

theorem fair_patternRest (cur : Kind) : Fair (patternRest cur) := by
  unfold patternRest
  fair

macro_rules | `(tactic| fairr) => `(tactic| with_reducible exact fair_patternRest _)

theorem fair_patternBody : Fair patternBody := by
  unfold patternBody
  fair

macro_rules | `(tactic| fairr) => `(tactic| with_reducible exact fair_patternBody)

theorem fair_bumpAddress : Fair bumpAddress := by
  unfold bumpAddress
  fair

macro_rules | `(tactic| fairr) => `(tactic| with_reducible exact fair_bumpAddress)

theorem fair_addressLit : Fair addressLit := by
  unfold addressLit
  fair

macro_rules | `(tactic| fairr) => `(tactic| with_reducible exact fair_addressLit)

theorem fair_literal : Fair literal := by
  unfold literal
  fair

macro_rules | `(tactic| fairr) => `(tactic| with_reducible exact fair_literal)

theorem fair_expr : Fair expr := by
  unfold expr
  fair

macro_rules | `(tactic| fairr) => `(tactic| with_reducible exact fair_expr)

theorem fair_parenLoopBody : Fair parenLoopBody := by
  unfold parenLoopBody
  fair

macro_rules | `(tactic| fairr) => `(tactic| with_reducible exact fair_parenLoopBody)

theorem fair_parenExpr : Fair parenExpr := by
  unfold parenExpr
  fair

macro_rules | `(tactic| fairr) => `(tactic| with_reducible exact fair_parenExpr)

theorem fair_blockLoopBody : Fair blockLoopBody := by
  unfold blockLoopBody
  fair

macro_rules | `(tactic| fairr) => `(tactic| with_reducible exact fair_blockLoopBody)

theorem fair_blockExprUnchecked : Fair blockExprUnchecked := by
  unfold blockExprUnchecked
  fair

macro_rules | `(tactic| fairr) => `(tactic| with_reducible exact fair_blockExprUnchecked)

theorem fair_blockExpr : Fair blockExpr := by
  unfold blockExpr
  fair

macro_rules | `(tactic| fairr) => `(tactic| with_reducible exact fair_blockExpr)

theorem fair_recordExprField : Fair recordExprField := by
  unfold recordExprField
  fair

macro_rules | `(tactic| fairr) => `(tactic| with_reducible exact fair_recordExprField)

theorem fair_recordExprLoopBody : Fair recordExprLoopBody := by
  unfold recordExprLoopBody
  fair

macro_rules | `(tactic| fairr) => `(tactic| with_reducible exact fair_recordExprLoopBody)

theorem fair_recordExprFieldList : Fair recordExprFieldList := by
  unfold recordExprFieldList
  fair

macro_rules | `(tactic| fairr) => `(tactic| with_reducible exact fair_recordExprFieldList)

theorem fair_pathExpr : Fair pathExpr := by
  unfold pathExpr
  fair

macro_rules | `(tactic| fairr) => `(tactic| with_reducible exact fair_pathExpr)

theorem fair_atomExpr : Fair atomExpr := by
  unfold atomExpr
  fair

macro_rules | `(tactic| fairr) => `(tactic| with_reducible exact fair_atomExpr)

theorem fair_currentOp : Fair currentOp := by
  unfold currentOp
  fair

macro_rules | `(tactic| fairr) => `(tactic| with_reducible exact fair_currentOp)

theorem fair_argLoopBody : Fair argLoopBody := by
  unfold argLoopBody
  fair

macro_rules | `(tactic| fairr) => `(tactic| with_reducible exact fair_argLoopBody)

theorem fair_argList : Fair argList := by
  unfold argList
  fair

macro_rules | `(tactic| fairr) => `(tactic| with_reducible exact fair_argList)

theorem fair_callExpr (lhs : Completed) : Fair (callExpr lhs) := by
  unfold callExpr
  fair

macro_rules | `(tactic| fairr) => `(tactic| with_reducible exact fair_callExpr _)

theorem fair_fieldExpr (lhs : Completed) : Fair (fieldExpr lhs) := by
  unfold fieldExpr
  fair

macro_rules | `(tactic| fairr) => `(tactic| with_reducible exact fair_fieldExpr _)

theorem fair_postfixLoopBody (lhs : Completed) : Fair (postfixLoopBody lhs) := by
  unfold postfixLoopBody
  fair

macro_rules | `(tactic| fairr) => `(tactic| with_reducible exact fair_postfixLoopBody _)

theorem fair_lhsExpr : Fair lhsExpr := by
  unfold lhsExpr
  fair

macro_rules | `(tactic| fairr) => `(tactic| with_reducible exact fair_lhsExpr)

theorem fair_exprBpLoopBody (bp : Nat) (lhs : Completed) : Fair (exprBpLoopBody bp lhs) := by
  unfold exprBpLoopBody
  fair

macro_rules | `(tactic| fairr) => `(tactic| with_reducible exact fair_exprBpLoopBody _ _)

theorem fair_exprBpBody (bp : Nat) : Fair (exprBpBody bp) := by
  unfold exprBpBody
  fair

macro_rules | `(tactic| fairr) => `(tactic| with_reducible exact fair_exprBpBody _)

theorem fair_semi (withSemi : StmtWithSemi) : Fair (semi withSemi) := by
  unfold semi
  fair

macro_rules | `(tactic| fairr) => `(tactic| with_reducible exact fair_semi _)

theorem fair_letStmt (m : Marker) (withSemi : StmtWithSemi) : Fair (letStmt m withSemi) := by
  unfold letStmt
  fair

macro_rules | `(tactic| fairr) => `(tactic| with_reducible exact fair_letStmt _ _)

theorem fair_stmtBody (withSemi : StmtWithSemi) : Fair (stmtBody withSemi) := by
  unfold stmtBody
  fair

macro_rules | `(tactic| fairr) => `(tactic| with_reducible exact fair_stmtBody _)

theorem fair_exprBlockLoopBody : Fair exprBlockLoopBody := by
  unfold exprBlockLoopBody
  fair

macro_rules | `(tactic| fairr) => `(tactic| with_reducible exact fair_exprBlockLoopBody)

theorem fair_recordField : Fair recordField := by
  unfold recordField
  fair

macro_rules | `(tactic| fairr) => `(tactic| with_reducible exact fair_recordField)

theorem fair_recordFieldLoopBody : Fair recordFieldLoopBody := by
  unfold recordFieldLoopBody
  fair

macro_rules | `(tactic| fairr) => `(tactic| with_reducible exact fair_recordFieldLoopBody)

theorem fair_recordFieldList : Fair recordFieldList := by
  unfold recordFieldList
  fair

macro_rules | `(tactic| fairr) => `(tactic| with_reducible exact fair_recordFieldList)

theorem fair_structDef (m : Marker) : Fair (structDef m) := by
  unfold structDef
  fair

macro_rules | `(tactic| fairr) => `(tactic| with_reducible exact fair_structDef _)

theorem fair_optRetType : Fair optRetType := by
  unfold optRetType
  fair

macro_rules | `(tactic| fairr) => `(tactic| with_reducible exact fair_optRetType)

theorem fair_functionDef (m : Marker) : Fair (functionDef m) := by
  unfold functionDef
  fair

macro_rules | `(tactic| fairr) => `(tactic| with_reducible exact fair_functionDef _)

theorem fair_optItem (m : Marker) : FairIf (Started m) (optItem m) := by
  unfold optItem
  refine started_current fun cur => ?_
  split
  · exact (fair_functionDef m).if _
  · split
    · exact (fair_structDef m).if _
    · exact started_error (fairIf_bind (fair_completeError m) fun _ => fair_pure _)

theorem fair_item : Fair item := by
  unfold item
  refine fair_started fun m => fairIf_bind (fair_optItem m) fun _ => ?_
  fair

macro_rules | `(tactic| fairr) => `(tactic| with_reducible exact fair_item)

theorem fair_itemLoopBody : Fair itemLoopBody := by
  unfold itemLoopBody
  fair

macro_rules | `(tactic| fairr) => `(tactic| with_reducible exact fair_itemLoopBody)

theorem fair_itemList : Fair itemList := by
  unfold itemList
  fair

macro_rules | `(tactic| fairr) => `(tactic| with_reducible exact fair_itemList)

theorem fair_addressIdentR (recoveryTokens : TokenSet) : Fair (addressIdentR recoveryTokens) := by
  unfold addressIdentR
  fair

macro_rules | `(tactic| fairr) => `(tactic| with_reducible exact fair_addressIdentR _)

theorem fair_itemListOrSemi : Fair itemListOrSemi := by
  unfold itemListOrSemi
  fair

macro_rules | `(tactic| fairr) => `(tactic| with_reducible exact fair_itemListOrSemi)

theorem fair_moduleDef : Fair moduleDef := by
  unfold moduleDef
  fair

macro_rules | `(tactic| fairr) => `(tactic| with_reducible exact fair_moduleDef)

theorem fair_addressItemLoopBody : Fair addressItemLoopBody := by
  unfold addressItemLoopBody
  fair

macro_rules | `(tactic| fairr) => `(tactic| with_reducible exact fair_addressItemLoopBody)

theorem fair_addressItemList : Fair addressItemList := by
  unfold addressItemList
  fair

macro_rules | `(tactic| fairr) => `(tactic| with_reducible exact fair_addressItemList)

theorem fair_addressDef : Fair addressDef := by
  unfold addressDef
  fair

macro_rules | `(tactic| fairr) => `(tactic| with_reducible exact fair_addressDef)

theorem fair_scriptDef : Fair scriptDef := by
  unfold scriptDef
  fair

macro_rules | `(tactic| fairr) => `(tactic| with_reducible exact fair_scriptDef)

theorem fair_rootLoopBody : Fair rootLoopBody := by
  unfold rootLoopBody
  fair

macro_rules | `(tactic| fairr) => `(tactic| with_reducible exact fair_rootLoopBody)

theorem fair_root : Fair root := by
  unfold root
  fair

macro_rules | `(tactic| fairr) => `(tactic| with_reducible exact fair_root)

theorem fair_body (f : Fn) : Fair (body f) := by
  cases f <;> unfold body <;> fairr

theorem honest_callN (n : Nat) : Honest (callN lowLevel body n) := by
  induction n with
  | zero => intro f s a s' h; cases h
  | succ n ih => intro f s a s' h; exact fair_body f _ ih s a s' trivial h

/-- The events of a file: the start of a node of kind `ERROR` is followed by an error. -/
theorem parse_told {depth : Nat} {text : Text} {s : PState} (h : parseEvents depth text = .ok () s) : Told s.events := by
  unfold parseEvents at h
  split at h
  · cases h
  · refine (fair_root _ (honest_callN depth) _ _ _ trivial h).told ?_
    intro i fp hi
    simp at hi

end Verif.Parser
