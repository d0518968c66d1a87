import Verif.Parser.LostExpr

set_option autoImplicit false

/-! The check of `Verif.Parser.LostCheck` for items. -/

namespace Verif.Parser

open Kind

variable {k : Kind} {c : Nat}

/-! items/adt.rs -/

theorem ck_recordField (hc : 3 ≤ c) :
    Ck recordField k c fun _ _ c' => Paid (k ≠ L_BRACE ∧ k ≠ R_BRACE ∧ k ≠ EOF) c c' 4 1 := by
  unfold recordField
  cka
  ckend

macro_rules | `(tactic| ckr) => `(tactic| cku ck_recordField)

theorem ck_recordFieldList (hc : 2 ≤ c) :
    Ck recordFieldList k c fun _ _ c' => Paid (True) c c' 5 0 := by
  unfold recordFieldList
  cka
  ckend

macro_rules | `(tactic| ckr) => `(tactic| cku ck_recordFieldList)

theorem ck_structDef {m : Marker} (hc : 1 ≤ c) :
    Ck (structDef m) k c fun _ _ c' => Paid (True) c c' 5 0 := by
  unfold structDef
  cka
  ckend

macro_rules | `(tactic| ckr) => `(tactic| cku ck_structDef)

/-! items.rs -/

theorem ck_optRetType (hc : 2 ≤ c) :
    Ck optRetType k c fun _ _ c' => Paid (False) c c' 0 1 := by
  unfold optRetType
  cka
  ckend

macro_rules | `(tactic| ckr) => `(tactic| cku ck_optRetType)

theorem ck_functionDef {m : Marker} (hc : 2 ≤ c) :
    Ck (functionDef m) k c fun _ _ c' => Paid (True) c c' 7 0 := by
  unfold functionDef
  cka
  ckend

macro_rules | `(tactic| ckr) => `(tactic| cku ck_functionDef)

theorem ck_optItem {m : Marker} (hc : 2 ≤ c) :
    Ck (optItem m) k c fun _ _ c' => Paid (k = FUN_KW ∨ k = STRUCT_KW) c c' 7 0 := by
  unfold optItem
  cka
  ckend

theorem ck_item (hc : 3 ≤ c) :
    Ck item k c fun _ _ c' => Paid (k = FUN_KW ∨ k = STRUCT_KW ∨ k = SEMICOLON) c c' 8 1 := by
  unfold item optItem
  cka
  ckend

macro_rules | `(tactic| ckr) => `(tactic| cku ck_item)

theorem ck_itemList (hc : 2 ≤ c) :
    Ck itemList k c fun _ _ c' => Paid (True) c c' 5 0 := by
  unfold itemList
  cka
  ckend

macro_rules | `(tactic| ckr) => `(tactic| cku ck_itemList)

theorem ck_addressIdentR {ts : TokenSet} (hc : 1 ≤ c) :
    Ck (addressIdentR ts) k c fun _ _ c' => Paid (False) c c' 0 1 := by
  unfold addressIdentR
  cka
  ckend

macro_rules | `(tactic| ckr) => `(tactic| cku ck_addressIdentR)

theorem ck_itemListOrSemi (hc : 3 ≤ c) :
    Ck itemListOrSemi k c fun _ _ c' => Paid (False) c c' 0 2 := by
  unfold itemListOrSemi
  cka
  ckend

macro_rules | `(tactic| ckr) => `(tactic| cku ck_itemListOrSemi)

theorem ck_moduleDef (hc : 2 ≤ c) :
    Ck moduleDef MODULE_KW c fun _ _ c' => Paid True c c' 8 0 := by
  unfold moduleDef
  refine ck_bind (ck_start fun m => ck_bind (ck_at (by omega) (fun _ => ?_) (fun h => absurd rfl h)))
  refine ck_bind (show Ck (pure ()) _ _ _ from ?_)
  cka
  ckend

macro_rules | `(tactic| ckr) => `(tactic| cku ck_moduleDef)

theorem ck_addressItemList (hc : 2 ≤ c) :
    Ck addressItemList k c fun _ _ c' => Paid (True) c c' 5 0 := by
  unfold addressItemList
  cka
  ckend

macro_rules | `(tactic| ckr) => `(tactic| cku ck_addressItemList)

theorem ck_addressDef (hc : 1 ≤ c) :
    Ck addressDef k c fun _ _ c' => Paid (True) c c' 4 0 := by
  unfold addressDef
  cka
  ckend

macro_rules | `(tactic| ckr) => `(tactic| cku ck_addressDef)

theorem ck_scriptDef (hc : 1 ≤ c) :
    Ck scriptDef k c fun _ _ c' => Paid (True) c c' 3 0 := by
  unfold scriptDef
  cka
  ckend

macro_rules | `(tactic| ckr) => `(tactic| cku ck_scriptDef)

end Verif.Parser
