import Verif.Parser.Accept

set_option autoImplicit false

/-! The parser accepts paths, types, parameters, fields, type parameters and patterns. -/

namespace Verif.Parser

open Language

/-- Closes a goal about the trees that a run has added. -/
macro "grow" "[" ts:Lean.Parser.Tactic.simpLemma,* "]" : tactic =>
  `(tactic| (constructor <;> simp [Forest.shape, Forest.errs, Kind.isTrivia, nameShape, nameRefShape, segmentShape,
      onePathShape, $ts,*]))

/-- Closes a goal about the number of lookups. -/
macro "count" : tactic =>
  `(tactic| (simp only [List.length_append, List.length_cons, List.length_nil, idents_nil, idents_cons, idents_append,
      reduceCtorEq, if_true, if_false] at *; omega))

/-- Closes a goal `Clean v r` with `h : Clean w rest`, where `w ++ rest` ends in `v ++ r`. -/
macro "clean" h:ident : tactic =>
  `(tactic| (have hcl := Clean.to $h
             try simp only [List.cons_append, List.nil_append, List.append_assoc, List.append_nil] at hcl
             repeat (first
               | exact CleanTo.clean (by
                   (try simp only [List.length_append, List.length_cons, List.length_nil]); omega) hcl
               | (replace hcl := CleanTo.cons hcl) | (replace hcl := CleanTo.append hcl))))

/-- Closes a goal about the first token behind an instance. -/
macro "after" : tactic =>
  `(tactic| simp [AfterType, AfterAtom, AfterUnary, AfterExpr, AfterWhole, Next, kind0_cons, kind0_nil, opTable])

/-! ### Paths and types -/

theorem acc_onePath : ∀ {w : List Tok} {sh : List Shape}, Acc .onePath w sh → Acc .path w sh := by
  rintro _ _ ⟨t, l1, l2, rfl, rfl⟩
  refine ⟨⟨_, _, rfl, List.mem_cons_self⟩, ?_⟩
  intro rest u n i o hc hf Q hQ
  simp only [path]
  steps []
  exact WP.last (hQ _ _ _ _ _ _ (by count) (by grow []))

theorem acc_path_more {w v : List Tok} {sh sh' : List Shape} {t : Text} {l1 l2 : Kind}
    (h : Acc .path w sh) (h' : Acc .segment v sh') :
    Acc .path (w ++ ⟨.COLON_COLON, t, l1, l2⟩ :: v) [.node .PATH (sh ++ .leaf .COLON_COLON :: sh')] := by
  obtain ⟨⟨x, w', rfl, hx⟩, h⟩ := h
  obtain ⟨t', m1, m2, rfl, rfl⟩ := h'
  refine ⟨⟨_, _, rfl, hx⟩, ?_⟩
  intro rest u n i o hc hf Q hQ
  have hcl : l2 ≠ .STAR ∧ l2 ≠ .L_BRACE := by
    have : Clean [⟨.COLON_COLON, t, l1, l2⟩, ⟨.IDENT, t', m1, m2⟩] rest := by clean hc
    exact this.2.1 rfl
  rw [List.append_assoc]
  refine h _ _ _ _ _ (by clean hc) trivial _ fun c u1 n1 k pre kids c1 g1 => ?_
  simp only [body, pathLoopBody]
  steps [hcl.1, hcl.2]
  exact WP.last (hQ _ _ _ _ _ _ (by count) (by
    obtain ⟨rfl, e1, e2⟩ := g1
    grow [e1, e2]))

/-- The loop of a path stops when no `::` follows. -/
theorem wp_pathLoop {c : Completed} {w : List Tok} {u n : Nat} {i : Forest} {o : List (Forest × Forest)}
    {Q : Unit → TState → Prop} (h : AfterType w) (hQ : Q () ⟨w, u + 2, n, i, o⟩) :
    WP (body (.pathLoop c)) ⟨w, u, n, i, o⟩ Q := by
  simp only [body, pathLoopBody]
  steps [show (kind0 w == Kind.COLON_COLON) = false from kind_beq_ne h]
  exact hQ

theorem acc_type_path {w : List Tok} {sh : List Shape} (h : Acc .path w sh) :
    AccType w [.node .PATH_TYPE sh] := by
  obtain ⟨⟨⟨k, t, l1, l2⟩, w', rfl, hx⟩, h⟩ := h
  obtain rfl : k = .IDENT := by simpa using hx
  refine ⟨⟨_, _, rfl, by simp⟩, ?_⟩
  intro rest u n i o hc hf Q hQ
  simp only [body, typeBody, pathType]
  steps []
  refine WP.bind (h _ _ _ _ _ hc trivial _ fun c u1 n1 k pre kids c1 g1 => ?_)
  refine wp_pathLoop hf ?_
  steps []
  exact hQ _ _ _ _ trivial (by count) (by
    obtain ⟨rfl, e1, e2⟩ := g1
    grow [e1, e2])

theorem acc_type_ref {w : List Tok} {sh : List Shape} {t : Text} {l1 l2 : Kind} (h : AccType w sh) :
    AccType (⟨.AMP, t, l1, l2⟩ :: w) [.node .REF_TYPE (.leaf .AMP :: sh)] := by
  refine ⟨⟨_, _, rfl, by simp⟩, ?_⟩
  intro rest u n i o hc hf Q hQ
  have hk : kind0 (w ++ rest) ≠ .MUT_KW := by
    obtain ⟨⟨x, w', rfl, hx⟩, _⟩ := h
    rintro e
    rw [show x.kind = _ from e] at hx
    simp at hx
  simp only [body, typeBody, refType]
  steps [hk]
  refine WP.call (h.2 _ _ _ _ _ (by clean hc) hf _ fun r u1 n1 i1 _ c1 g1 => ?_)
  steps []
  exact hQ _ _ _ _ trivial (by count) (by grow [g1.1, g1.2])

theorem acc_type_ref_mut {w : List Tok} {sh : List Shape} {t t' : Text} {l1 l2 m1 m2 : Kind}
    (h : AccType w sh) :
    AccType (⟨.AMP, t, l1, l2⟩ :: ⟨.MUT_KW, t', m1, m2⟩ :: w)
      [.node .REF_TYPE (.leaf .AMP :: .leaf .MUT_KW :: sh)] := by
  refine ⟨⟨_, _, rfl, by simp⟩, ?_⟩
  intro rest u n i o hc hf Q hQ
  simp only [body, typeBody, refType]
  steps []
  refine WP.call (h.2 _ _ _ _ _ (by clean hc) hf _ fun r u1 n1 i1 _ c1 g1 => ?_)
  steps []
  exact hQ _ _ _ _ trivial (by count) (by grow [g1.1, g1.2])

/-! ### Parameters -/

theorem type_first_ident : TYPE_FIRST.contains .IDENT = true := rfl

theorem acc_params_nil : Acc .params [] [] := by
  rintro rest u n i o hc ⟨t, l1, l2, r, rfl⟩ Q hQ
  simp only [body, paramLoopBody]
  steps []
  exact hQ _ _ _ _ trivial (by count) (by grow [])

theorem acc_params_one {w : List Tok} {sh : List Shape} (h : Acc .param w sh) : Acc .params w sh := by
  obtain ⟨t, l1, l2, t', m1, m2, v, sh', rfl, hT, rfl⟩ := h
  rintro rest u n i o hc ⟨t, l1, l2, r, rfl⟩ Q hQ
  simp only [body, paramLoopBody, param, ascription]
  steps [type_first_ident]
  refine WP.call (hT.2 _ _ _ _ _ (by clean hc) (by after) _ fun r u1 n1 i1 _ c1 g1 => ?_)
  steps []
  refine WP.last ?_
  simp only [body, paramLoopBody]
  steps []
  exact hQ _ _ _ _ trivial (by count) (by grow [g1.1, g1.2])

theorem acc_params_cons {w v : List Tok} {sh shv : List Shape} {t0 : Text} {k1 k2 : Kind}
    (h : Acc .param w sh) (h' : Acc .params v shv) :
    Acc .params (w ++ ⟨.COMMA, t0, k1, k2⟩ :: v) (sh ++ .leaf .COMMA :: shv) := by
  obtain ⟨t, l1, l2, t', m1, m2, v, sh', rfl, hT, rfl⟩ := h
  rintro rest u n i o hc hf Q hQ
  simp only [body, paramLoopBody, param, ascription]
  steps [type_first_ident]
  refine WP.call (hT.2 _ _ _ _ _ (by clean hc) (by after) _ fun r u1 n1 i1 _ c1 g1 => ?_)
  steps []
  refine WP.last (h' _ _ _ _ _ (by clean hc) hf _ fun r u2 n2 i2 _ c2 g2 => ?_)
  exact hQ _ _ _ _ trivial (by count) (by grow [g1.1, g1.2, g2.1, g2.2])

theorem acc_paramList {w : List Tok} {sh : List Shape} {t t' : Text} {l1 l2 m1 m2 : Kind}
    (h : Acc .params w sh) :
    Acc .paramList (⟨.L_PAREN, t, l1, l2⟩ :: (w ++ [⟨.R_PAREN, t', m1, m2⟩]))
      [.node .PARAM_LIST (.leaf .L_PAREN :: (sh ++ [.leaf .R_PAREN]))] := by
  refine ⟨⟨_, _, rfl, List.mem_cons_self⟩, ?_⟩
  rintro rest u n i o hc hf Q hQ
  simp only [paramList]
  steps []
  refine WP.call (h _ _ _ _ _ (by clean hc) (by after) _ fun r u1 n1 i1 _ c1 g1 => ?_)
  steps []
  exact hQ _ _ _ _ trivial (by count) (by grow [g1.1, g1.2])

/-! ### Fields of a struct -/

theorem acc_fields_nil : Acc .fields [] [] := by
  rintro rest u n i o hc ⟨t, l1, l2, r, rfl⟩ Q hQ
  simp only [body, recordFieldLoopBody]
  steps []
  exact hQ _ _ _ _ trivial (by count) (by grow [])

theorem acc_fields_one {w : List Tok} {sh : List Shape} (h : Acc .field w sh) : Acc .fields w sh := by
  obtain ⟨t, l1, l2, t', m1, m2, v, sh', rfl, hT, rfl⟩ := h
  rintro rest u n i o hc ⟨t, l1, l2, r, rfl⟩ Q hQ
  simp only [body, recordFieldLoopBody, recordField]
  steps []
  refine WP.call (hT.2 _ _ _ _ _ (by clean hc) (by after) _ fun r u1 n1 i1 _ c1 g1 => ?_)
  steps []
  refine WP.last ?_
  simp only [body, recordFieldLoopBody]
  steps []
  exact hQ _ _ _ _ trivial (by count) (by grow [g1.1, g1.2])

theorem acc_fields_cons {w v : List Tok} {sh shv : List Shape} {t0 : Text} {k1 k2 : Kind}
    (h : Acc .field w sh) (h' : Acc .fields v shv) :
    Acc .fields (w ++ ⟨.COMMA, t0, k1, k2⟩ :: v) (sh ++ .leaf .COMMA :: shv) := by
  obtain ⟨t, l1, l2, t', m1, m2, v, sh', rfl, hT, rfl⟩ := h
  rintro rest u n i o hc hf Q hQ
  simp only [body, recordFieldLoopBody, recordField]
  steps []
  refine WP.call (hT.2 _ _ _ _ _ (by clean hc) (by after) _ fun r u1 n1 i1 _ c1 g1 => ?_)
  steps []
  refine WP.last (h' _ _ _ _ _ (by clean hc) hf _ fun r u2 n2 i2 _ c2 g2 => ?_)
  exact hQ _ _ _ _ trivial (by count) (by grow [g1.1, g1.2, g2.1, g2.2])

theorem acc_fieldList {w : List Tok} {sh : List Shape} {t t' : Text} {l1 l2 m1 m2 : Kind}
    (h : Acc .fields w sh) :
    Acc .fieldList (⟨.L_BRACE, t, l1, l2⟩ :: (w ++ [⟨.R_BRACE, t', m1, m2⟩]))
      [.node .RECORD_FIELD_LIST (.leaf .L_BRACE :: (sh ++ [.leaf .R_BRACE]))] := by
  refine ⟨⟨_, _, rfl, List.mem_cons_self⟩, ?_⟩
  rintro rest u n i o hc hf Q hQ
  simp only [recordFieldList]
  steps []
  refine WP.call (h _ _ _ _ _ (by clean hc) (by after) _ fun r u1 n1 i1 _ c1 g1 => ?_)
  steps []
  exact hQ _ _ _ _ trivial (by count) (by grow [g1.1, g1.2])

/-! ### Type parameters -/

theorem acc_bounds_one {w : List Tok} {sh : List Shape} (h : Acc .bound w sh) : AccBounds w sh := by
  obtain ⟨t, l1, l2, rfl, rfl⟩ := h
  rintro rest u n i o hc hf Q hQ
  simp only [body, boundsLoopBody, typeBound]
  steps [hf]
  exact hQ _ _ _ _ trivial (by count) (by grow [])

theorem acc_bounds_cons {w v : List Tok} {sh shv : List Shape} {t0 : Text} {k1 k2 : Kind}
    (h : Acc .bound w sh) (h' : AccBounds v shv) :
    AccBounds (w ++ ⟨.PLUS, t0, k1, k2⟩ :: v) (sh ++ .leaf .PLUS :: shv) := by
  obtain ⟨t, l1, l2, rfl, rfl⟩ := h
  rintro rest u n i o hc hf Q hQ
  simp only [body, boundsLoopBody, typeBound]
  steps []
  refine WP.last (h' _ _ _ _ _ (by clean hc) hf _ fun r u2 n2 i2 _ c2 g2 => ?_)
  exact hQ _ _ _ _ trivial (by count) (by grow [g2.1, g2.2])

theorem acc_generics_nil : Acc .generics [] [] := by
  rintro rest u n i o hc ⟨t, l1, l2, r, rfl⟩ Q hQ
  simp only [body, genericParamLoopBody]
  steps []
  exact hQ _ _ _ _ trivial (by count) (by grow [])

theorem acc_generics_one {w : List Tok} {sh : List Shape} (h : Acc .generic w sh) :
    Acc .generics w sh := by
  rcases h with ⟨t, l1, l2, rfl, rfl⟩ | ⟨t, l1, l2, t', m1, m2, v, sh', rfl, hT, rfl⟩
  · rintro rest u n i o hc ⟨t, l1, l2, r, rfl⟩ Q hQ
    simp only [body, genericParamLoopBody, genericParam, typeParam]
    steps []
    refine WP.last ?_
    simp only [body, genericParamLoopBody]
    steps []
    exact hQ _ _ _ _ trivial (by count) (by grow [])
  · rintro rest u n i o hc ⟨t, l1, l2, r, rfl⟩ Q hQ
    simp only [body, genericParamLoopBody, genericParam, typeParam, bounds]
    steps []
    refine WP.call (hT _ _ _ _ _ (by clean hc) (by after) _ fun r u1 n1 i1 _ c1 g1 => ?_)
    steps []
    refine WP.last ?_
    simp only [body, genericParamLoopBody]
    steps []
    exact hQ _ _ _ _ trivial (by count) (by grow [g1.1, g1.2])

theorem acc_generics_cons {w v : List Tok} {sh shv : List Shape} {t0 : Text} {k1 k2 : Kind}
    (h : Acc .generic w sh) (h' : Acc .generics v shv) :
    Acc .generics (w ++ ⟨.COMMA, t0, k1, k2⟩ :: v) (sh ++ .leaf .COMMA :: shv) := by
  rcases h with ⟨t, l1, l2, rfl, rfl⟩ | ⟨t, l1, l2, t', m1, m2, v, sh', rfl, hT, rfl⟩
  · rintro rest u n i o hc hf Q hQ
    simp only [body, genericParamLoopBody, genericParam, typeParam]
    steps []
    refine WP.last (h' _ _ _ _ _ (by clean hc) hf _ fun r u2 n2 i2 _ c2 g2 => ?_)
    exact hQ _ _ _ _ trivial (by count) (by grow [g2.1, g2.2])
  · rintro rest u n i o hc hf Q hQ
    simp only [body, genericParamLoopBody, genericParam, typeParam, bounds]
    steps []
    refine WP.call (hT _ _ _ _ _ (by clean hc) (by after) _ fun r u1 n1 i1 _ c1 g1 => ?_)
    steps []
    refine WP.last (h' _ _ _ _ _ (by clean hc) hf _ fun r u2 n2 i2 _ c2 g2 => ?_)
    exact hQ _ _ _ _ trivial (by count) (by grow [g1.1, g1.2, g2.1, g2.2])

theorem acc_genericList {w : List Tok} {sh : List Shape} {t t' : Text} {l1 l2 m1 m2 : Kind}
    (h : Acc .generics w sh) :
    Acc .genericList (⟨.LT, t, l1, l2⟩ :: (w ++ [⟨.GT, t', m1, m2⟩]))
      [.node .GENERIC_PARAM_LIST (.leaf .LT :: (sh ++ [.leaf .GT]))] := by
  refine ⟨⟨_, _, rfl, List.mem_cons_self⟩, ?_⟩
  rintro rest u n i o hc hf Q hQ
  simp only [genericParamList]
  steps []
  refine WP.call (h _ _ _ _ _ (by clean hc) (by after) _ fun r u1 n1 i1 _ c1 g1 => ?_)
  steps []
  exact hQ _ _ _ _ trivial (by count) (by grow [g1.1, g1.2])

/-! ### Patterns -/

theorem pattern_first_ident : PATTERN_FIRST.contains .IDENT = true := rfl
theorem pattern_first_mut : PATTERN_FIRST.contains .MUT_KW = true := rfl
theorem pattern_first_paren : PATTERN_FIRST.contains .L_PAREN = true := rfl

theorem acc_pattern_ident {w : List Tok} {sh : List Shape} (h : Acc .identPat w sh) :
    Acc .pattern w sh := by
  rcases h with ⟨t, l1, l2, rfl, rfl⟩ | ⟨t, l1, l2, t', m1, m2, rfl, rfl⟩
  · refine ⟨⟨_, _, rfl, List.mem_cons_self⟩, ?_⟩
    rintro rest u n i o hc hf Q hQ
    have hl : l1 ≠ .L_BRACE := by
      have := hc.1 (.inl rfl)
      simp only at this
      rw [this]
      exact hf
    simp only [body, patternBody, identPat]
    steps [hl]
    exact hQ _ _ _ _ trivial (by count) (by grow [])
  · refine ⟨⟨_, _, rfl, by simp⟩, ?_⟩
    rintro rest u n i o hc hf Q hQ
    simp only [body, patternBody, identPat]
    steps []
    exact hQ _ _ _ _ trivial (by count) (by grow [])

theorem acc_pattern_record {w v : List Tok} {sh shv : List Shape} (h : Acc .onePath w sh)
    (h' : Acc .patFieldList v shv) : Acc .pattern (w ++ v) [.node .RECORD_PAT (sh ++ shv)] := by
  obtain ⟨t, l1, l2, rfl, rfl⟩ := h
  obtain ⟨⟨⟨k, t', m1, m2⟩, v, rfl, hk⟩, hv⟩ := h'
  obtain rfl : k = .L_BRACE := by simpa using hk
  refine ⟨⟨_, _, rfl, List.mem_cons_self⟩, ?_⟩
  rintro rest u n i o hc hf Q hQ
  obtain rfl : l1 = .L_BRACE := hc.1 (.inl rfl)
  simp only [body, patternBody, pathPat, path]
  steps []
  refine WP.call (wp_pathLoop (by after) ?_)
  steps []
  refine WP.bind (hv _ _ _ _ _ (by clean hc) trivial _ fun r u1 n1 i1 _ c1 g1 => ?_)
  steps []
  exact hQ _ _ _ _ trivial (by count) (by grow [g1.1, g1.2])

theorem acc_pattern_unit {t t' : Text} {l1 l2 m1 m2 : Kind} :
    Acc .pattern [⟨.L_PAREN, t, l1, l2⟩, ⟨.R_PAREN, t', m1, m2⟩]
      [.node .TUPLE_PAT [.leaf .L_PAREN, .leaf .R_PAREN]] := by
  refine ⟨⟨_, _, rfl, by simp⟩, ?_⟩
  rintro rest u n i o hc hf Q hQ
  simp only [body, patternBody, patternRest, tuplePat]
  steps []
  refine WP.call ?_
  simp only [body, tuplePatLoopBody]
  steps []
  exact hQ _ _ _ _ trivial (by count) (by grow [])

/-- What `tuple_pat` looks at before it reads a pattern. -/
theorem pattern_head {w : List Tok} (h : Head [.IDENT, .MUT_KW, .L_PAREN] w) (rest : List Tok) :
    PATTERN_FIRST.contains (kind0 (w ++ rest)) = true ∧ kind0 (w ++ rest) ≠ .EOF ∧
      kind0 (w ++ rest) ≠ .R_PAREN ∧ (kind0 (w ++ rest) == .DOTDOT) = false := by
  obtain ⟨⟨k, t, l1, l2⟩, w, rfl, hk⟩ := h
  simp only [List.mem_cons, List.not_mem_nil, or_false] at hk
  rw [List.cons_append, kind0_cons]
  rcases hk with rfl | rfl | rfl <;> exact ⟨rfl, by decide, by decide, rfl⟩

/-- Uses that the next token is not `..`. -/
local macro "dots" h:ident : tactic =>
  `(tactic| rw [$h:ident])

theorem acc_pattern_paren {w : List Tok} {sh : List Shape} {t t' : Text} {l1 l2 m1 m2 : Kind}
    (h : Acc .pattern w sh) :
    Acc .pattern (⟨.L_PAREN, t, l1, l2⟩ :: (w ++ [⟨.R_PAREN, t', m1, m2⟩]))
      [.node .PAREN_PAT (.leaf .L_PAREN :: (sh ++ [.leaf .R_PAREN]))] := by
  obtain ⟨hh, h⟩ := h
  refine ⟨⟨_, _, rfl, by simp⟩, ?_⟩
  rintro rest u n i o hc hf Q hQ
  obtain ⟨e1, e2, e3, e4⟩ := pattern_head hh (⟨.R_PAREN, t', m1, m2⟩ :: rest)
  simp only [body, patternBody, patternRest, tuplePat]
  steps []
  refine WP.call ?_
  simp only [body, tuplePatLoopBody]
  steps [e1, e2, e3]
  dots e4
  refine WP.call (h _ _ _ _ _ (by clean hc) (by after) _ fun r u1 n1 i1 _ c1 g1 => ?_)
  steps []
  refine WP.last ?_
  simp only [body, tuplePatLoopBody]
  steps []
  exact hQ _ _ _ _ trivial (by count) (by grow [g1.1, g1.2])

theorem acc_pattern_tuple {w v : List Tok} {sh shv : List Shape} {t t' t0 : Text}
    {l1 l2 m1 m2 k1 k2 : Kind} (h : Acc .pattern w sh) (h' : Acc .pats v shv) :
    Acc .pattern (⟨.L_PAREN, t, l1, l2⟩ :: (w ++ ⟨.COMMA, t0, k1, k2⟩ :: (v ++ [⟨.R_PAREN, t', m1, m2⟩])))
      [.node .TUPLE_PAT (.leaf .L_PAREN :: (sh ++ .leaf .COMMA :: (shv ++ [.leaf .R_PAREN])))] := by
  obtain ⟨hh, h⟩ := h
  refine ⟨⟨_, _, rfl, by simp⟩, ?_⟩
  rintro rest u n i o hc hf Q hQ
  obtain ⟨e1, e2, e3, e4⟩ := pattern_head hh (⟨.COMMA, t0, k1, k2⟩ :: (v ++ ⟨.R_PAREN, t', m1, m2⟩ :: rest))
  simp only [body, patternBody, patternRest, tuplePat]
  steps []
  refine WP.call ?_
  simp only [body, tuplePatLoopBody]
  steps [e1, e2, e3]
  dots e4
  refine WP.call (h _ _ _ _ _ (by clean hc) (by after) _ fun r u1 n1 i1 _ c1 g1 => ?_)
  steps []
  refine WP.last (h' _ _ _ _ _ (by clean hc) (by after) _ fun r u2 n2 i2 hr c2 g2 => ?_)
  subst hr
  steps []
  exact hQ _ _ _ _ trivial (by count) (by grow [g1.1, g1.2, g2.1, g2.2])

theorem acc_pats_nil : Acc .pats [] [] := by
  rintro rest u n i o hc ⟨t, l1, l2, r, rfl⟩ Q hQ
  simp only [body, tuplePatLoopBody]
  steps []
  exact hQ _ _ _ _ rfl (by count) (by grow [])

theorem acc_pats_one {w : List Tok} {sh : List Shape} (h : Acc .pattern w sh) : Acc .pats w sh := by
  obtain ⟨hh, h⟩ := h
  rintro rest u n i o hc ⟨t, l1, l2, r, rfl⟩ Q hQ
  obtain ⟨e1, e2, e3, e4⟩ := pattern_head hh (⟨.R_PAREN, t, l1, l2⟩ :: r)
  simp only [body, tuplePatLoopBody]
  steps [e1, e2, e3]
  dots e4
  refine WP.call (h _ _ _ _ _ (by clean hc) (by after) _ fun r u1 n1 i1 _ c1 g1 => ?_)
  steps []
  refine WP.last ?_
  simp only [body, tuplePatLoopBody]
  steps []
  exact hQ _ _ _ _ rfl (by count) (by grow [g1.1, g1.2])

theorem acc_pats_cons {w v : List Tok} {sh shv : List Shape} {t0 : Text} {k1 k2 : Kind}
    (h : Acc .pattern w sh) (h' : Acc .pats v shv) :
    Acc .pats (w ++ ⟨.COMMA, t0, k1, k2⟩ :: v) (sh ++ .leaf .COMMA :: shv) := by
  obtain ⟨hh, h⟩ := h
  rintro rest u n i o hc hf Q hQ
  obtain ⟨e1, e2, e3, e4⟩ := pattern_head hh (⟨.COMMA, t0, k1, k2⟩ :: (v ++ rest))
  simp only [body, tuplePatLoopBody]
  steps [e1, e2, e3]
  dots e4
  refine WP.call (h _ _ _ _ _ (by clean hc) (by after) _ fun r u1 n1 i1 _ c1 g1 => ?_)
  steps []
  refine WP.last (h' _ _ _ _ _ (by clean hc) hf _ fun r u2 n2 i2 hr c2 g2 => ?_)
  exact hQ _ _ _ _ hr (by count) (by grow [g1.1, g1.2, g2.1, g2.2])

theorem acc_patField_short {w : List Tok} {sh : List Shape} (h : Acc .identPat w sh) :
    Acc .patField w [.node .RECORD_PAT_FIELD sh] := by
  rcases h with ⟨t, l1, l2, rfl, rfl⟩ | ⟨t, l1, l2, t', m1, m2, rfl, rfl⟩
  · refine ⟨⟨_, _, rfl, List.mem_cons_self⟩, ?_⟩
    rintro rest u n i o hc hf Q hQ
    have hl : l1 ≠ .COLON := by
      have := hc.1 (.inl rfl)
      simp only at this
      rw [this]
      exact hf.1
    simp only [recordPatField, identPat]
    steps [hl]
    exact hQ _ _ _ _ trivial (by count) (by grow [])
  · refine ⟨⟨_, _, rfl, by simp⟩, ?_⟩
    rintro rest u n i o hc hf Q hQ
    simp only [recordPatField, identPat]
    steps []
    exact hQ _ _ _ _ trivial (by count) (by grow [])

theorem acc_patField {w v : List Tok} {sh shv : List Shape} {t0 : Text} {k1 k2 : Kind}
    (h : Acc .nameRef w sh) (h' : Acc .pattern v shv) :
    Acc .patField (w ++ ⟨.COLON, t0, k1, k2⟩ :: v)
      [.node .RECORD_PAT_FIELD (sh ++ .leaf .COLON :: shv)] := by
  obtain ⟨t, l1, l2, rfl, rfl⟩ := h
  obtain ⟨_, h'⟩ := h'
  refine ⟨⟨_, _, rfl, List.mem_cons_self⟩, ?_⟩
  rintro rest u n i o hc hf Q hQ
  obtain rfl : l1 = .COLON := hc.1 (.inl rfl)
  simp only [recordPatField]
  steps []
  refine WP.call (h' _ _ _ _ _ (by clean hc) hf.2 _ fun r u1 n1 i1 _ c1 g1 => ?_)
  steps []
  exact hQ _ _ _ _ trivial (by count) (by grow [g1.1, g1.2])

/-- What the loop over the fields of a record pattern looks at before it reads a field. -/
theorem patField_head {w : List Tok} (h : Head [.IDENT, .MUT_KW] w) (rest : List Tok) :
    kind0 (w ++ rest) ≠ .EOF ∧ kind0 (w ++ rest) ≠ .R_BRACE ∧ kind0 (w ++ rest) ≠ .DOT ∧
      kind0 (w ++ rest) ≠ .L_BRACE := by
  obtain ⟨⟨k, t, l1, l2⟩, w, rfl, hk⟩ := h
  simp only [List.mem_cons, List.not_mem_nil, or_false] at hk
  rcases hk with rfl | rfl <;> exact ⟨by after, by after, by after, by after⟩

theorem acc_patFields_nil : Acc .patFields [] [] := by
  rintro rest u n i o hc ⟨t, l1, l2, r, rfl⟩ Q hQ
  simp only [body, recordPatLoopBody]
  steps []
  exact hQ _ _ _ _ trivial (by count) (by grow [])

theorem acc_patFields_one {w : List Tok} {sh : List Shape} (h : Acc .patField w sh) :
    Acc .patFields w sh := by
  obtain ⟨hh, h⟩ := h
  rintro rest u n i o hc ⟨t, l1, l2, r, rfl⟩ Q hQ
  obtain ⟨e1, e2, e3, e4⟩ := patField_head hh (⟨.R_BRACE, t, l1, l2⟩ :: r)
  simp only [body, recordPatLoopBody, recordPatEntry]
  steps [e1, e2, e3, e4]
  refine WP.bind (h _ _ _ _ _ (by clean hc) (by after) _ fun r u1 n1 i1 _ c1 g1 => ?_)
  steps []
  refine WP.last ?_
  simp only [body, recordPatLoopBody]
  steps []
  exact hQ _ _ _ _ trivial (by count) (by grow [g1.1, g1.2])

theorem acc_patFields_cons {w v : List Tok} {sh shv : List Shape} {t0 : Text} {k1 k2 : Kind}
    (h : Acc .patField w sh) (h' : Acc .patFields v shv) :
    Acc .patFields (w ++ ⟨.COMMA, t0, k1, k2⟩ :: v) (sh ++ .leaf .COMMA :: shv) := by
  obtain ⟨hh, h⟩ := h
  rintro rest u n i o hc hf Q hQ
  obtain ⟨e1, e2, e3, e4⟩ := patField_head hh (⟨.COMMA, t0, k1, k2⟩ :: (v ++ rest))
  simp only [body, recordPatLoopBody, recordPatEntry]
  steps [e1, e2, e3, e4]
  refine WP.bind (h _ _ _ _ _ (by clean hc) (by after) _ fun r u1 n1 i1 _ c1 g1 => ?_)
  steps []
  refine WP.last (h' _ _ _ _ _ (by clean hc) hf _ fun r u2 n2 i2 hr c2 g2 => ?_)
  exact hQ _ _ _ _ trivial (by count) (by grow [g1.1, g1.2, g2.1, g2.2])

theorem acc_patFieldList {w : List Tok} {sh : List Shape} {t t' : Text} {l1 l2 m1 m2 : Kind}
    (h : Acc .patFields w sh) :
    Acc .patFieldList (⟨.L_BRACE, t, l1, l2⟩ :: (w ++ [⟨.R_BRACE, t', m1, m2⟩]))
      [.node .RECORD_PAT_FIELD_LIST (.leaf .L_BRACE :: (sh ++ [.leaf .R_BRACE]))] := by
  refine ⟨⟨_, _, rfl, List.mem_cons_self⟩, ?_⟩
  rintro rest u n i o hc hf Q hQ
  simp only [recordPatFieldList]
  steps []
  refine WP.call (h _ _ _ _ _ (by clean hc) (by after) _ fun r u1 n1 i1 _ c1 g1 => ?_)
  steps []
  exact hQ _ _ _ _ trivial (by count) (by grow [g1.1, g1.2])

end Verif.Parser
