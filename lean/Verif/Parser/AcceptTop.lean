import Verif.Parser.AcceptExpr

set_option autoImplicit false

/-! The parser accepts functions, structs, modules, scripts and files, rule by rule. -/

namespace Verif.Parser

open Language

/-! ### Functions -/

theorem acc_fun_unit {x p b : List Tok} {shx shp shb : List Shape} {t : Text} {l1 l2 : Kind}
    (hx : Acc .name x shx) (hp : Acc .paramList p shp) (hb : Acc .block b shb) :
    Acc .funDef (⟨.FUN_KW, t, l1, l2⟩ :: (x ++ (p ++ b)))
      [.node .FUNCTION_DEF (.leaf .FUN_KW :: (shx ++ (shp ++ shb)))] := by
  obtain ⟨t', m1, m2, rfl, rfl⟩ := hx
  obtain ⟨⟨⟨k, t1, j1, j2⟩, p, rfl, hk⟩, hp⟩ := hp
  obtain rfl : k = .L_PAREN := by simpa using hk
  obtain ⟨⟨⟨k, t2, k1, k2⟩, b, rfl, hk⟩, hb⟩ := hb
  obtain rfl : k = .L_BRACE := by simpa using hk
  refine ⟨⟨_, _, rfl, List.mem_cons_self⟩, ?_⟩
  rintro rest u n i o hc hf Q hQ
  simp only [item, optItem, functionDef, optRetType, blockExpr]
  steps []
  refine WP.bind (hp _ _ _ _ _ (by clean hc) trivial _ fun r u1 n1 i1 _ c1 g1 => ?_)
  steps []
  refine WP.bind (hb _ _ _ _ _ (by clean hc) trivial _ fun c u2 n2 k pre kids c2 g2 => ?_)
  obtain ⟨rfl, e1, e2⟩ := g2
  steps [kind_beq_ne hf]
  exact hQ _ _ _ _ trivial (by count) (by grow [g1.1, g1.2, e1, e2])

theorem acc_fun_ret {x p r b : List Tok} {shx shp shr shb : List Shape} {t : Text} {l1 l2 : Kind}
    (hx : Acc .name x shx) (hp : Acc .paramList p shp) (hr : Acc .ret r shr) (hb : Acc .block b shb) :
    Acc .funDef (⟨.FUN_KW, t, l1, l2⟩ :: (x ++ (p ++ (r ++ b))))
      [.node .FUNCTION_DEF (.leaf .FUN_KW :: (shx ++ (shp ++ (shr ++ shb))))] := by
  obtain ⟨t', m1, m2, rfl, rfl⟩ := hx
  obtain ⟨⟨⟨k, t1, j1, j2⟩, p, rfl, hk⟩, hp⟩ := hp
  obtain rfl : k = .L_PAREN := by simpa using hk
  obtain ⟨⟨⟨k, t2, k1, k2⟩, b, rfl, hk⟩, hb⟩ := hb
  obtain rfl : k = .L_BRACE := by simpa using hk
  obtain ⟨t3, i1, i2, v, shr, rfl, hT, rfl⟩ := hr
  refine ⟨⟨_, _, rfl, List.mem_cons_self⟩, ?_⟩
  rintro rest u n i o hc hf Q hQ
  simp only [item, optItem, functionDef, optRetType, blockExpr]
  steps []
  refine WP.bind (hp _ _ _ _ _ (by clean hc) trivial _ fun r u1 n1 i1 _ c1 g1 => ?_)
  steps []
  refine WP.call (hT.2 _ _ _ _ _ (by clean hc) (by after) _ fun r u3 n3 i3 _ c3 g3 => ?_)
  steps []
  refine WP.bind (hb _ _ _ _ _ (by clean hc) trivial _ fun c u2 n2 k pre kids c2 g2 => ?_)
  obtain ⟨rfl, e1, e2⟩ := g2
  steps [kind_beq_ne hf]
  exact hQ _ _ _ _ trivial (by count) (by grow [g1.1, g1.2, e1, e2, g3.1, g3.2])

/-! ### Structs -/

theorem acc_struct_native {x : List Tok} {shx : List Shape} {t t' : Text} {l1 l2 m1 m2 : Kind}
    (hx : Acc .name x shx) :
    Acc .structDef (⟨.STRUCT_KW, t, l1, l2⟩ :: (x ++ [⟨.SEMICOLON, t', m1, m2⟩]))
      [.node .STRUCT (.leaf .STRUCT_KW :: (shx ++ [.leaf .SEMICOLON]))] := by
  obtain ⟨t1, j1, j2, rfl, rfl⟩ := hx
  refine ⟨⟨_, _, rfl, by simp⟩, ?_⟩
  rintro rest u n i o hc hf Q hQ
  simp only [item, optItem, structDef, optGenericParamList]
  steps [kind_beq_ne hf]
  exact hQ _ _ _ _ trivial (by count) (by grow [])

theorem acc_struct_fields {x f : List Tok} {shx shf : List Shape} {t : Text} {l1 l2 : Kind}
    (hx : Acc .name x shx) (hf : Acc .fieldList f shf) :
    Acc .structDef (⟨.STRUCT_KW, t, l1, l2⟩ :: (x ++ f))
      [.node .STRUCT (.leaf .STRUCT_KW :: (shx ++ shf))] := by
  obtain ⟨t1, j1, j2, rfl, rfl⟩ := hx
  obtain ⟨⟨⟨k, t2, k1, k2⟩, b, rfl, hk⟩, hF⟩ := hf
  obtain rfl : k = .L_BRACE := by simpa using hk
  refine ⟨⟨_, _, rfl, by simp⟩, ?_⟩
  rintro rest u n i o hc hf Q hQ
  simp only [item, optItem, structDef, optGenericParamList]
  steps []
  refine WP.bind (hF _ _ _ _ _ (by clean hc) trivial _ fun r u1 n1 i1 _ c1 g1 => ?_)
  steps [kind_beq_ne hf]
  exact hQ _ _ _ _ trivial (by count) (by grow [g1.1, g1.2])

theorem acc_struct_generic_native {x g : List Tok} {shx shg : List Shape} {t t' : Text}
    {l1 l2 m1 m2 : Kind} (hx : Acc .name x shx) (hg : Acc .genericList g shg) :
    Acc .structDef (⟨.STRUCT_KW, t, l1, l2⟩ :: (x ++ (g ++ [⟨.SEMICOLON, t', m1, m2⟩])))
      [.node .STRUCT (.leaf .STRUCT_KW :: (shx ++ (shg ++ [.leaf .SEMICOLON])))] := by
  obtain ⟨t1, j1, j2, rfl, rfl⟩ := hx
  obtain ⟨⟨⟨k, t2, k1, k2⟩, b, rfl, hk⟩, hG⟩ := hg
  obtain rfl : k = .LT := by simpa using hk
  refine ⟨⟨_, _, rfl, by simp⟩, ?_⟩
  rintro rest u n i o hc hf Q hQ
  simp only [item, optItem, structDef, optGenericParamList]
  steps []
  refine WP.bind (hG _ _ _ _ _ (by clean hc) trivial _ fun r u1 n1 i1 _ c1 g1 => ?_)
  steps [kind_beq_ne hf]
  exact hQ _ _ _ _ trivial (by count) (by grow [g1.1, g1.2])

theorem acc_struct_generic_fields {x g f : List Tok} {shx shg shf : List Shape} {t : Text}
    {l1 l2 : Kind} (hx : Acc .name x shx) (hg : Acc .genericList g shg) (hf : Acc .fieldList f shf) :
    Acc .structDef (⟨.STRUCT_KW, t, l1, l2⟩ :: (x ++ (g ++ f)))
      [.node .STRUCT (.leaf .STRUCT_KW :: (shx ++ (shg ++ shf)))] := by
  obtain ⟨t1, j1, j2, rfl, rfl⟩ := hx
  obtain ⟨⟨⟨k, t2, k1, k2⟩, b, rfl, hk⟩, hG⟩ := hg
  obtain rfl : k = .LT := by simpa using hk
  obtain ⟨⟨⟨k, t3, i1, i2⟩, f, rfl, hk⟩, hF⟩ := hf
  obtain rfl : k = .L_BRACE := by simpa using hk
  refine ⟨⟨_, _, rfl, by simp⟩, ?_⟩
  rintro rest u n i o hc hf Q hQ
  simp only [item, optItem, structDef, optGenericParamList]
  steps []
  refine WP.bind (hG _ _ _ _ _ (by clean hc) trivial _ fun r u1 n1 i1 _ c1 g1 => ?_)
  steps []
  refine WP.bind (hF _ _ _ _ _ (by clean hc) trivial _ fun r u2 n2 i2 _ c2 g2 => ?_)
  steps [kind_beq_ne hf]
  exact hQ _ _ _ _ trivial (by count) (by grow [g1.1, g1.2, g2.1, g2.2])

/-! ### Bodies of modules and scripts -/

theorem acc_items_nil : Acc .items [] [] := by
  refine ⟨.inl rfl, ?_⟩
  rintro rest u n i o hc ⟨t, l1, l2, r, rfl⟩ Q hQ
  simp only [body, itemLoopBody]
  steps []
  exact hQ _ _ _ _ trivial (by count) (by grow [])

theorem acc_items_cons {w v : List Tok} {sh shv : List Shape}
    (h : Head [.FUN_KW, .STRUCT_KW] w ∧ Accepts item (kind0 · ≠ .SEMICOLON) 5 0 w sh)
    (h' : Acc .items v shv) : Acc .items (w ++ v) (sh ++ shv) := by
  refine ⟨.inr (h.1.append _), ?_⟩
  rintro rest u n i o hc hf Q hQ
  have e1 := h.1.ne (k := .R_BRACE) (by decide) (v ++ rest)
  have e2 := h.1.ne (k := .EOF) (by decide) (v ++ rest)
  have e3 : kind0 (v ++ rest) ≠ .SEMICOLON := by
    rcases h'.1 with rfl | hv
    · obtain ⟨t, l1, l2, r, rfl⟩ := hf
      simp only [List.nil_append, kind0_cons]
      decide
    · exact hv.ne (by decide) rest
  simp only [body, itemLoopBody]
  steps [e1, e2]
  refine WP.bind (h.2 _ _ _ _ _ (by clean hc) e3 _ fun r u1 n1 i1 hr c1 g1 => ?_)
  refine WP.last (h'.2 _ _ _ _ _ (by clean hc) hf _ fun r u2 n2 i2 hr c2 g2 => ?_)
  exact hQ _ _ _ _ trivial (by count) (by grow [g1.1, g1.2, g2.1, g2.2])

theorem acc_itemBody {w : List Tok} {sh : List Shape} {t t' : Text} {l1 l2 m1 m2 : Kind}
    (h : Acc .items w sh) :
    Acc .itemBody (⟨.L_BRACE, t, l1, l2⟩ :: (w ++ [⟨.R_BRACE, t', m1, m2⟩]))
      [.node .ITEM_LIST (.leaf .L_BRACE :: (sh ++ [.leaf .R_BRACE]))] := by
  refine ⟨⟨_, _, rfl, List.mem_cons_self⟩, ?_⟩
  rintro rest u n i o hc hf Q hQ
  simp only [itemList]
  steps []
  refine WP.call (h.2 _ _ _ _ _ (by clean hc) (by after) _ fun r u1 n1 i1 _ c1 g1 => ?_)
  steps []
  exact hQ _ _ _ _ trivial (by count) (by grow [g1.1, g1.2])

/-! ### Modules, scripts and address blocks -/

theorem acc_module_plain {x b : List Tok} {shx shb : List Shape} {t : Text} {l1 l2 : Kind}
    (hx : Acc .name x shx) (hb : Acc .itemBody b shb) :
    Acc .moduleDef (⟨.MODULE_KW, t, l1, l2⟩ :: (x ++ b))
      [.node .MODULE_DEF (.leaf .MODULE_KW :: (shx ++ shb))] := by
  obtain ⟨t1, j1, j2, rfl, rfl⟩ := hx
  obtain ⟨⟨⟨k, t2, k1, k2⟩, b, rfl, hk⟩, hb⟩ := hb
  obtain rfl : k = .L_BRACE := by simpa using hk
  refine ⟨⟨_, _, rfl, by simp⟩, ?_⟩
  rintro rest u n i o hc hf Q hQ
  obtain rfl : j1 = .L_BRACE := hc.2.2.1 (.inl rfl)
  simp only [moduleDef, itemListOrSemi]
  steps []
  refine WP.bind (hb _ _ _ _ _ (by clean hc) trivial _ fun r u1 n1 i1 _ c1 g1 => ?_)
  steps []
  exact hQ _ _ _ _ trivial (by count) (by grow [g1.1, g1.2])

theorem acc_module_at {a x b : List Tok} {sha shx shb : List Shape} {t t' : Text}
    {l1 l2 m1 m2 : Kind} (ha : Acc .address a sha) (hx : Acc .name x shx) (hb : Acc .itemBody b shb) :
    Acc .moduleDef (⟨.MODULE_KW, t, l1, l2⟩ :: (a ++ ⟨.COLON_COLON, t', m1, m2⟩ :: (x ++ b)))
      [.node .MODULE_DEF (.leaf .MODULE_KW :: (sha ++ .leaf .COLON_COLON :: (shx ++ shb)))] := by
  obtain ⟨t1, j1, j2, rfl, rfl⟩ := hx
  obtain ⟨⟨⟨k, t2, k1, k2⟩, b, rfl, hk⟩, hb⟩ := hb
  obtain rfl : k = .L_BRACE := by simpa using hk
  rcases ha with ⟨t3, i1, i2, rfl, rfl⟩ | ⟨t3, i1, i2, rfl, rfl⟩
  · refine ⟨⟨_, _, rfl, by simp⟩, ?_⟩
    rintro rest u n i o hc hf Q hQ
    obtain rfl : i1 = .COLON_COLON := hc.2.2.1 (.inl rfl)
    simp only [moduleDef, itemListOrSemi, addressIdentR]
    steps []
    refine WP.bind (hb _ _ _ _ _ (by clean hc) trivial _ fun r u1 n1 i1 _ c1 g1 => ?_)
    steps []
    exact hQ _ _ _ _ trivial (by count) (by grow [g1.1, g1.2])
  · refine ⟨⟨_, _, rfl, by simp⟩, ?_⟩
    rintro rest u n i o hc hf Q hQ
    obtain rfl : i1 = .COLON_COLON := hc.2.2.1 (.inr rfl)
    simp only [moduleDef, itemListOrSemi, addressIdentR]
    steps []
    refine WP.bind (hb _ _ _ _ _ (by clean hc) trivial _ fun r u1 n1 i1 _ c1 g1 => ?_)
    steps []
    exact hQ _ _ _ _ trivial (by count) (by grow [g1.1, g1.2])

theorem acc_script {b : List Tok} {shb : List Shape} {t : Text} {l1 l2 : Kind}
    (hb : Acc .itemBody b shb) :
    Acc .scriptDef (⟨.SCRIPT_KW, t, l1, l2⟩ :: b) [.node .SCRIPT_DEF (.leaf .SCRIPT_KW :: shb)] := by
  obtain ⟨⟨⟨k, t2, k1, k2⟩, b, rfl, hk⟩, hb⟩ := hb
  obtain rfl : k = .L_BRACE := by simpa using hk
  refine ⟨⟨_, _, rfl, by simp⟩, ?_⟩
  rintro rest u n i o hc hf Q hQ
  simp only [scriptDef, itemListOrSemi]
  steps []
  refine WP.bind (hb _ _ _ _ _ (by clean hc) trivial _ fun r u1 n1 i1 _ c1 g1 => ?_)
  steps []
  exact hQ _ _ _ _ trivial (by count) (by grow [g1.1, g1.2])

theorem acc_modules_nil : Acc .modules [] [] := by
  rintro rest u n i o hc ⟨t, l1, l2, r, rfl⟩ Q hQ
  simp only [body, addressItemLoopBody]
  steps []
  exact hQ _ _ _ _ trivial (by count) (by grow [])

theorem acc_modules_cons {w v : List Tok} {sh shv : List Shape} (h : Acc .moduleDef w sh)
    (h' : Acc .modules v shv) : Acc .modules (w ++ v) (sh ++ shv) := by
  rintro rest u n i o hc hf Q hQ
  have e1 := h.1.ne (k := .R_BRACE) (by decide) (v ++ rest)
  have e2 := h.1.ne (k := .EOF) (by decide) (v ++ rest)
  simp only [body, addressItemLoopBody]
  steps [e1, e2]
  refine WP.bind (h.2 _ _ _ _ _ (by clean hc) trivial _ fun r u1 n1 i1 hr c1 g1 => ?_)
  refine WP.last (h' _ _ _ _ _ (by clean hc) hf _ fun r u2 n2 i2 hr c2 g2 => ?_)
  exact hQ _ _ _ _ trivial (by count) (by grow [g1.1, g1.2, g2.1, g2.2])

theorem acc_moduleList {w : List Tok} {sh : List Shape} {t t' : Text} {l1 l2 m1 m2 : Kind}
    (h : Acc .modules w sh) :
    Acc .moduleList (⟨.L_BRACE, t, l1, l2⟩ :: (w ++ [⟨.R_BRACE, t', m1, m2⟩]))
      [.node .ADDRESS_ITEM_LIST (.leaf .L_BRACE :: (sh ++ [.leaf .R_BRACE]))] := by
  refine ⟨⟨_, _, rfl, List.mem_cons_self⟩, ?_⟩
  rintro rest u n i o hc hf Q hQ
  simp only [addressItemList]
  steps []
  refine WP.call (h _ _ _ _ _ (by clean hc) (by after) _ fun r u1 n1 i1 _ c1 g1 => ?_)
  steps []
  exact hQ _ _ _ _ trivial (by count) (by grow [g1.1, g1.2])

theorem acc_address_block {a b : List Tok} {sha shb : List Shape} {t : Text} {l1 l2 : Kind}
    (ha : Acc .address a sha) (hb : Acc .moduleList b shb) :
    Acc .addressDef (⟨.ADDRESS_KW, t, l1, l2⟩ :: (a ++ b))
      [.node .ADDRESS_DEF (.leaf .ADDRESS_KW :: (sha ++ shb))] := by
  obtain ⟨⟨⟨k, t2, k1, k2⟩, b, rfl, hk⟩, hb⟩ := hb
  obtain rfl : k = .L_BRACE := by simpa using hk
  rcases ha with ⟨t3, i1, i2, rfl, rfl⟩ | ⟨t3, i1, i2, rfl, rfl⟩ <;>
  · refine ⟨⟨_, _, rfl, by simp⟩, ?_⟩
    rintro rest u n i o hc hf Q hQ
    simp only [addressDef, addressIdentR]
    steps []
    refine WP.bind (hb _ _ _ _ _ (by clean hc) trivial _ fun r u1 n1 i1 _ c1 g1 => ?_)
    steps []
    exact hQ _ _ _ _ trivial (by count) (by grow [g1.1, g1.2])

/-! ### Files -/

theorem acc_file_nil : Acc .file [] [] := by
  rintro rest u n i o hc rfl Q hQ
  simp only [body, rootLoopBody]
  steps []
  exact hQ _ _ _ _ trivial (by count) (by grow [])

theorem acc_file_module {w v : List Tok} {sh shv : List Shape} (h : Acc .moduleDef w sh)
    (h' : Acc .file v shv) : Acc .file (w ++ v) (sh ++ shv) := by
  obtain ⟨⟨⟨k, t, l1, l2⟩, w, rfl, hk⟩, h⟩ := h
  obtain rfl : k = .MODULE_KW := by simpa using hk
  rintro rest u n i o hc hf Q hQ
  simp only [body, rootLoopBody]
  steps []
  refine WP.bind (h _ _ _ _ _ (by clean hc) trivial _ fun r u1 n1 i1 hr c1 g1 => ?_)
  refine WP.last (h' _ _ _ _ _ (by clean hc) hf _ fun r u2 n2 i2 hr c2 g2 => ?_)
  exact hQ _ _ _ _ trivial (by count) (by grow [g1.1, g1.2, g2.1, g2.2])

theorem acc_file_script {w v : List Tok} {sh shv : List Shape} (h : Acc .scriptDef w sh)
    (h' : Acc .file v shv) : Acc .file (w ++ v) (sh ++ shv) := by
  obtain ⟨⟨⟨k, t, l1, l2⟩, w, rfl, hk⟩, h⟩ := h
  obtain rfl : k = .SCRIPT_KW := by simpa using hk
  rintro rest u n i o hc hf Q hQ
  simp only [body, rootLoopBody]
  steps []
  refine WP.bind (h _ _ _ _ _ (by clean hc) trivial _ fun r u1 n1 i1 hr c1 g1 => ?_)
  refine WP.last (h' _ _ _ _ _ (by clean hc) hf _ fun r u2 n2 i2 hr c2 g2 => ?_)
  exact hQ _ _ _ _ trivial (by count) (by grow [g1.1, g1.2, g2.1, g2.2])

theorem acc_file_address {w v : List Tok} {sh shv : List Shape} (h : Acc .addressDef w sh)
    (h' : Acc .file v shv) : Acc .file (w ++ v) (sh ++ shv) := by
  obtain ⟨⟨⟨k, t, l1, l2⟩, w, rfl, hk⟩, h⟩ := h
  obtain rfl : k = .ADDRESS_KW := by simpa using hk
  rintro rest u n i o hc hf Q hQ
  simp only [body, rootLoopBody]
  steps []
  refine WP.bind (h _ _ _ _ _ (by clean hc) trivial _ fun r u1 n1 i1 hr c1 g1 => ?_)
  refine WP.last (h' _ _ _ _ _ (by clean hc) hf _ fun r u2 n2 i2 hr c2 g2 => ?_)
  exact hQ _ _ _ _ trivial (by count) (by grow [g1.1, g1.2, g2.1, g2.2])

/-! ### All rules -/

/-- Takes an instance of the right-hand side of a rule apart. -/
local macro "parts" : tactic =>
  `(tactic| (repeat (rename Parts _ _ _ _ => hp; cases hp)
             try simp only [wrap, List.append_nil]))

/-- A case of a rule with a theorem of its own. -/
local macro "by_rule" h:ident : tactic =>
  `(tactic| (parts; apply $h:ident <;> first | assumption | simp))

theorem acc_rule {x : NT} {k : Option Kind} {rhs : List Sym} {w : List Tok} {sh : List Shape}
    (hr : Rule x k rhs) (hp : Parts Acc rhs w sh) : Acc x w (wrap k sh) := by
  cases hr with
  | file_nil => by_rule acc_file_nil
  | file_module => by_rule acc_file_module
  | file_script => by_rule acc_file_script
  | file_address => by_rule acc_file_address
  | module_plain => by_rule acc_module_plain
  | module_at => by_rule acc_module_at
  | script => by_rule acc_script
  | address_block => by_rule acc_address_block
  | module_list => by_rule acc_moduleList
  | modules_nil => by_rule acc_modules_nil
  | modules_cons => by_rule acc_modules_cons
  | item_body => by_rule acc_itemBody
  | items_nil => by_rule acc_items_nil
  | items_fun => by_rule acc_items_cons
  | items_struct => by_rule acc_items_cons
  | fun_unit => by_rule acc_fun_unit
  | fun_ret => by_rule acc_fun_ret
  | param_list => by_rule acc_paramList
  | params_nil => by_rule acc_params_nil
  | params_one => by_rule acc_params_one
  | params_cons => by_rule acc_params_cons
  | struct_native => by_rule acc_struct_native
  | struct_fields => by_rule acc_struct_fields
  | struct_generic_native => by_rule acc_struct_generic_native
  | struct_generic_fields => by_rule acc_struct_generic_fields
  | generic_list => by_rule acc_genericList
  | generics_nil => by_rule acc_generics_nil
  | generics_one => by_rule acc_generics_one
  | generics_cons => by_rule acc_generics_cons
  | bounds_one => by_rule acc_bounds_one
  | bounds_cons => by_rule acc_bounds_cons
  | field_list => by_rule acc_fieldList
  | fields_nil => by_rule acc_fields_nil
  | fields_one => by_rule acc_fields_one
  | fields_cons => by_rule acc_fields_cons
  | type_path => by_rule acc_type_path
  | type_ref => by_rule acc_type_ref
  | type_ref_mut => by_rule acc_type_ref_mut
  | path_one => by_rule acc_onePath
  | path_more => by_rule acc_path_more
  | pattern_ident => by_rule acc_pattern_ident
  | pattern_record => by_rule acc_pattern_record
  | pattern_unit => by_rule acc_pattern_unit
  | pattern_paren => by_rule acc_pattern_paren
  | pattern_tuple => by_rule acc_pattern_tuple
  | pats_nil => by_rule acc_pats_nil
  | pats_one => by_rule acc_pats_one
  | pats_cons => by_rule acc_pats_cons
  | pat_field_list => by_rule acc_patFieldList
  | pat_fields_nil => by_rule acc_patFields_nil
  | pat_fields_one => by_rule acc_patFields_one
  | pat_fields_cons => by_rule acc_patFields_cons
  | pat_field_short => by_rule acc_patField_short
  | pat_field => by_rule acc_patField
  | block => by_rule acc_block
  | stmts_nil => by_rule acc_stmts_nil
  | stmts_last => by_rule acc_stmts_last
  | stmts_cons => by_rule acc_stmts_cons
  | stmt_expr => by_rule acc_stmt_expr
  | stmt_let => by_rule acc_stmt_let
  | stmt_let_type => by_rule acc_stmt_let_type
  | stmt_let_init => by_rule acc_stmt_let_init
  | stmt_let_both => by_rule acc_stmt_let_both
  | expr_up => by_rule acc_expr_up
  | expr_bin hb => by_rule acc_expr_bin
  | expr_unary => by_rule acc_expr_unary
  | unary_star => by_rule acc_unary_prefix
  | unary_bang => by_rule acc_unary_prefix
  | unary_minus => by_rule acc_unary_prefix
  | unary_postfixed => by_rule acc_unary_postfixed
  | postfixed_atom => by_rule acc_postfixed_atom
  | postfixed_call => by_rule acc_postfixed_call
  | postfixed_dot => by_rule acc_postfixed_dot
  | arg_list => by_rule acc_argList
  | args_nil => by_rule acc_args_nil
  | args_one => by_rule acc_args_one
  | args_cons => by_rule acc_args_cons
  | atom_true => by_rule acc_atom_literal
  | atom_false => by_rule acc_atom_literal
  | atom_integer => by_rule acc_atom_literal
  | atom_hex_string => by_rule acc_atom_literal
  | atom_byte_string => by_rule acc_atom_literal
  | atom_address => by_rule acc_atom_address
  | atom_path => by_rule acc_atom_path
  | atom_record => by_rule acc_atom_record
  | atom_unit => by_rule acc_atom_unit
  | atom_paren => by_rule acc_atom_paren
  | atom_block => by_rule acc_atom_block
  | expr_field_list => by_rule acc_exprFieldList
  | expr_fields_nil => by_rule acc_exprFields_nil
  | expr_fields_one => by_rule acc_exprFields_one
  | expr_fields_cons => by_rule acc_exprFields_cons
  | expr_field_short => by_rule acc_exprField_short
  | expr_field => by_rule acc_exprField
  | address_name => parts; exact .inl ⟨_, _, _, rfl, rfl⟩
  | address_hex => parts; exact .inr ⟨_, _, _, rfl, rfl⟩
  | name => parts; exact ⟨_, _, _, rfl, rfl⟩
  | name_ref => parts; exact ⟨_, _, _, rfl, rfl⟩
  | ret => parts; exact ⟨_, _, _, _, _, rfl, ‹AccType _ _›, rfl⟩
  | param => parts; obtain ⟨t, l1, l2, rfl, rfl⟩ := ‹Acc .name _ _›; exact ⟨_, _, _, _, _, _, _, _, rfl, ‹AccType _ _›, rfl⟩
  | field => parts; obtain ⟨t, l1, l2, rfl, rfl⟩ := ‹Acc .name _ _›; exact ⟨_, _, _, _, _, _, _, _, rfl, ‹AccType _ _›, rfl⟩
  | generic_plain => parts; obtain ⟨t, l1, l2, rfl, rfl⟩ := ‹Acc .name _ _›; exact .inl ⟨_, _, _, rfl, rfl⟩
  | generic_bounds => parts; obtain ⟨t, l1, l2, rfl, rfl⟩ := ‹Acc .name _ _›; obtain ⟨sh, h, rfl⟩ := ‹Acc .boundList _ _›; exact .inr ⟨_, _, _, _, _, _, _, _, rfl, h, rfl⟩
  | bound_list => parts; exact ⟨_, ‹Acc .bounds _ _›, rfl⟩
  | bound => parts; obtain ⟨t, l1, l2, rfl, rfl⟩ := ‹Acc .name _ _›; exact ⟨_, _, _, rfl, rfl⟩
  | one_path => parts; obtain ⟨t, l1, l2, rfl, rfl⟩ := ‹Acc .segment _ _›; exact ⟨_, _, _, rfl, rfl⟩
  | segment => parts; obtain ⟨t, l1, l2, rfl, rfl⟩ := ‹Acc .nameRef _ _›; exact ⟨_, _, _, rfl, rfl⟩
  | ident_pat => parts; obtain ⟨t, l1, l2, rfl, rfl⟩ := ‹Acc .name _ _›; exact .inl ⟨_, _, _, rfl, rfl⟩
  | ident_pat_mut => parts; obtain ⟨t, l1, l2, rfl, rfl⟩ := ‹Acc .name _ _›; exact .inr ⟨_, _, _, _, _, _, rfl, rfl⟩
  | address_lit_name => parts; exact ⟨_, _, _, _, _, rfl, .inl ⟨_, _, _, rfl, rfl⟩, rfl⟩
  | address_lit_hex => parts; exact ⟨_, _, _, _, _, rfl, .inr ⟨_, _, _, rfl, rfl⟩, rfl⟩
  | path_expr => parts; obtain ⟨t, l1, l2, rfl, rfl⟩ := ‹Acc .onePath _ _›; exact ⟨_, _, _, rfl, rfl⟩

/-- The parser accepts every derivable file. -/
theorem acc_file {w : List Tok} {ts : List (Kind × Text)} {sh : List Shape}
    (h : Derives [.nt .file] ts sh) (hw : w.map Tok.pair = ts) : Acc .file w sh := by
  have hp := parts_of_derives (A := Acc) (fun _ _ _ _ _ hr hp => acc_rule hr hp) h w hw
  cases hp with
  | nt h1 h2 =>
    cases h2
    simpa only [List.append_nil] using h1

end Verif.Parser
