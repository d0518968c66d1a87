import Verif.Parser.Said
import Verif.Parser.LostGrammar

set_option autoImplicit false

/-! The check of `Verif.Parser.Said` for the functions of the grammar. -/

namespace Verif.Parser

open Kind Missing

variable {α β : Type} {k x : Kind}

theorem tl_bind {p : Prog α} {f : α → Prog β} {Q : β → Kind → Prop} (h : Tl p k fun a y => Tl (f a) y Q) :
    Tl (p >>= f) k Q := by
  show Tl (p.bind f) k Q
  induction p generalizing k with
  | pure a => exact h
  | panic w => exact h
  | current κ ih => exact ih _ h
  | currentText κ ih => exact fun t => ih _ (h t)
  | nth n κ ih => exact fun x hx => ih _ (h x hx)
  | doBump kd κ ih => exact fun y => ih (h y)
  | start κ ih => exact fun m => ih _ (h m)
  | complete m kd κ ih => exact fun r => ih _ (h r)
  | abandon m κ ih => exact ih h
  | precede q κ ih => exact fun m => ih _ (h m)
  | error msg κ ih => exact ⟨h.1, ih h.2⟩
  | call f κ ih => exact fun r y hr => ih _ (h r y hr)

theorem tl_mono {p : Prog α} {Q R : α → Kind → Prop} (h : Tl p k Q) (hq : ∀ a y, Q a y → R a y) : Tl p k R := by
  induction p generalizing k with
  | pure a => exact hq _ _ h
  | panic w => exact h
  | current κ ih => exact ih _ h
  | currentText κ ih => exact fun t => ih _ (h t)
  | nth n κ ih => exact fun x hx => ih _ (h x hx)
  | doBump kd κ ih => exact fun y => ih (h y)
  | start κ ih => exact fun m => ih _ (h m)
  | complete m kd κ ih => exact fun r => ih _ (h r)
  | abandon m κ ih => exact ih h
  | precede q κ ih => exact fun m => ih _ (h m)
  | error msg κ ih => exact ⟨h.1, ih h.2⟩
  | call f κ ih => exact fun r y hr => ih _ (h r y hr)

/-- Nothing but the check. -/
theorem tl_use {p : Prog α} {Q : α → Kind → Prop} (h : ∀ k, Tl p k fun _ _ => True) (hq : ∀ a y, Q a y) : Tl p k Q :=
  tl_mono (h k) fun a y _ => hq a y

/-! Rules for the operations. -/

theorem tl_pure {a : α} {Q : α → Kind → Prop} (h : Q a k) : Tl (pure a) k Q := h
theorem tl_ret {a : α} {Q : α → Kind → Prop} (h : Q a k) : Tl (.pure a) k Q := h
theorem tl_current {Q : Kind → Kind → Prop} (h : Q k k) : Tl current k Q := h
theorem tl_currentText {Q : Text → Kind → Prop} (h : ∀ t, Q t k) : Tl currentText k Q := h
theorem tl_nth {n : Nat} {Q : Kind → Kind → Prop} (h : ∀ y, Q y k) : Tl (nth n) k Q := fun y _ => h y
theorem tl_nth0 {Q : Kind → Kind → Prop} (h : Q k k) : Tl (nth 0) k Q := fun y hy => by rw [hy rfl]; exact h
theorem tl_nthAt {n : Nat} {Q : Bool → Kind → Prop} (h : ∀ b, Q b k) : Tl (nthAt n x) k Q :=
  tl_bind (tl_nth fun _ => tl_pure (h _))

theorem tl_at {Q : Bool → Kind → Prop} (ht : k = x → Q true k) (hf : k ≠ x → Q false k) : Tl (at_ x) k Q := by
  refine tl_bind (tl_nth0 (tl_pure ?_))
  cases hb : k == x with
  | true => exact ht (eq_of_beq hb)
  | false => exact hf (by simpa using hb)

theorem tl_doBump {kd : Kind} {Q : Unit → Kind → Prop} (h : ∀ y, Q () y) : Tl (doBump kd) k Q := h

theorem tl_eat {Q : Bool → Kind → Prop} (ht : k = x → ∀ y, Q true y) (hf : k ≠ x → Q false k) : Tl (eat x) k Q := by
  refine tl_bind (tl_at (fun h => ?_) (fun h => ?_))
  · exact tl_bind (tl_doBump fun y => tl_pure (ht h y))
  · exact tl_pure (hf h)

theorem tl_assert {b : Bool} {what : String} {Q : Unit → Kind → Prop} (h : b = true → Q () k) : Tl (assert b what) k Q := by
  cases b with
  | true => exact h rfl
  | false => trivial

theorem tl_bump {Q : Unit → Kind → Prop} (h : k = x → ∀ y, Q () y) : Tl (bump x) k Q :=
  tl_bind (tl_eat (fun he y => tl_assert fun _ => h he y) (fun _ => tl_assert fun h => by cases h))

theorem tl_bumpAny {Q : Unit → Kind → Prop} (h0 : k = EOF → Q () k) (h : k ≠ EOF → ∀ y, Q () y) : Tl bumpAny k Q := by
  refine tl_bind (tl_current ?_)
  cases hb : k == EOF with
  | true => exact h0 (eq_of_beq hb)
  | false => exact tl_doBump (h (by simpa using hb))

theorem tl_bumpRemap {Q : Unit → Kind → Prop} (h : ∀ y, Q () y) : Tl (bumpRemap x) k Q := by
  refine tl_bind (tl_nth0 ?_)
  cases hb : k == EOF with
  | true => exact h _
  | false => exact tl_doBump h

theorem tl_atTs {ts : TokenSet} {Q : Bool → Kind → Prop} (ht : ts.contains k = true → Q true k)
    (hf : ts.contains k = false → Q false k) : Tl (atTs ts) k Q := by
  refine tl_bind (tl_current (tl_pure ?_))
  cases hb : ts.contains k with
  | true => exact ht hb
  | false => exact hf hb

theorem tl_start {Q : Marker → Kind → Prop} (h : ∀ m, Q m k) : Tl start k Q := h
theorem tl_error {msg : String} {Q : Unit → Kind → Prop} (hr : Right msg k) (h : Q () k) : Tl (error msg) k Q := ⟨hr, h⟩
theorem tl_complete {m : Marker} {kd : Kind} {Q : Completed → Kind → Prop} (h : ∀ r, Q r k) : Tl (m.complete kd) k Q := h
theorem tl_abandon {m : Marker} {Q : Unit → Kind → Prop} (h : Q () k) : Tl m.abandon k Q := h
theorem tl_precede {q : Completed} {Q : Marker → Kind → Prop} (h : ∀ m, Q m k) : Tl q.precede k Q := h
theorem tl_call {f : Fn} {Q : f.Res → Kind → Prop} (h : ∀ r y, Returned f r → Q r y) : Tl (call f) k Q := h

theorem tl_ite {p : Prop} [Decidable p] {a b : Prog α} {Q : α → Kind → Prop}
    (ht : p → Tl a k Q) (hf : ¬ p → Tl b k Q) : Tl (if p then a else b) k Q := by
  split
  · exact ht ‹_›
  · exact hf ‹_›

theorem tl_expect {Q : Bool → Kind → Prop} (hr : k ≠ x → Right ("expected " ++ x.debugName) k)
    (ht : k = x → ∀ y, Q true y) (hf : k ≠ x → Q false k) : Tl (expect x) k Q := by
  refine tl_bind (tl_eat (fun h y => ?_) (fun h => ?_))
  · exact tl_pure (ht h y)
  · exact tl_bind (tl_error (hr h) (tl_pure (hf h)))

theorem tl_neither {a b : Kind} {Q : Bool → Kind → Prop} (h : ∀ r, Q r k) : Tl (neither a b) k Q := by
  refine tl_bind (tl_at (fun _ => tl_pure (h _)) (fun h1 => ?_))
  exact tl_bind (tl_at (fun _ => tl_pure (h _)) (fun h2 => tl_pure (h _)))

theorem tl_errRecover {msg : String} {ts : TokenSet} {Q : Unit → Kind → Prop} (hr : Right msg k) (h : ∀ y, Q () y) :
    Tl (errRecover msg ts) k Q := by
  refine tl_bind (tl_current (tl_ite (fun _ => tl_bind (tl_error hr (tl_pure (h _)))) fun _ => ?_))
  refine tl_bind (tl_atTs (fun _ => tl_bind (tl_error hr (tl_pure (h _)))) fun _ => ?_)
  refine tl_bind (tl_start fun m => tl_bind (tl_error hr (tl_bind (tl_bumpAny (fun _ => ?_) fun _ y => ?_))))
  · exact tl_bind (tl_complete fun r => tl_pure (h _))
  · exact tl_bind (tl_complete fun r => tl_pure (h _))

theorem tl_errAndBump {msg : String} {Q : Unit → Kind → Prop} (hr : Right msg k) (h : ∀ y, Q () y) :
    Tl (errAndBump msg) k Q := tl_errRecover hr h

theorem tl_errorAndSkipUntil {msg : String} {ts : TokenSet} {Q : Completed → Kind → Prop} (hr : Right msg k)
    (h : ∀ r y, Q r y) : Tl (errorAndSkipUntil msg ts) k Q :=
  tl_bind (tl_start fun _ => tl_bind (tl_error hr (tl_bind (tl_call fun _ y _ => tl_complete fun r => h r y))))

theorem tl_errorBlock {msg : String} {Q : Unit → Kind → Prop} (hr : k = L_BRACE → Right msg k) (h : ∀ y, Q () y) :
    Tl (errorBlock msg) k Q := by
  refine tl_bind (tl_at (fun hk => tl_bind (tl_assert fun _ => ?_)) fun _ => tl_bind (tl_assert fun h => by cases h))
  refine tl_bind (tl_start fun _ => tl_bind (tl_error (hr hk) (tl_bind (tl_bump fun _ y => tl_bind (tl_call fun _ y _ => ?_)))))
  refine tl_bind (tl_eat (fun _ y => ?_) fun _ => ?_) <;> exact tl_bind (tl_complete fun r => tl_pure (h _))

theorem tl_isPathStart {Q : Bool → Kind → Prop} (ht : k = IDENT → Q true k) (hf : k ≠ IDENT → Q false k) :
    Tl isPathStart k Q := by
  refine tl_bind (tl_current (tl_pure ?_))
  cases hb : k == IDENT with
  | true => exact ht (eq_of_beq hb)
  | false => exact hf (by simpa using hb)

/-- An address, or no name. -/
theorem tl_bumpAddress {Q : Bool → Kind → Prop} (ht : ∀ y, Q true y) (hf : k ≠ IDENT → Q false k) : Tl bumpAddress k Q := by
  refine tl_bind (tl_current (tl_ite (fun h => tl_bind (tl_bump fun _ y => tl_pure (ht y))) fun h => ?_))
  have h : k ≠ IDENT := by simpa using h
  refine tl_bind (tl_current (tl_ite (fun _ => tl_bind (tl_currentText fun t => tl_ite (fun _ => ?_) fun _ => tl_pure (hf h)))
    fun _ => tl_pure (hf h)))
  exact tl_bind (tl_bumpRemap fun y => tl_pure (ht y))

theorem literal_first : LITERAL_FIRST.contains k = false → k ∉ [TRUE_KW, FALSE_KW, INTEGER_NUMBER, HEX_STRING, BYTE_STRING, ATSIGN] := by
  cases k <;> decide

theorem pattern_first : PATTERN_FIRST.contains k = false → k ∉ [IDENT, MUT_KW, WILDCARD, L_PAREN] := by
  cases k <;> decide

theorem type_first : TYPE_FIRST.contains k = false → k ∉ [IDENT, AMP] := by
  cases k <;> decide

/-! Automation. -/

theorem row0 (h : k ∉ [COMMA]) : Right "expected COMMA" k := ⟨_, List.mem_of_getElem? (i := 0) rfl, h⟩
theorem row1 (h : k ∉ [COLON]) : Right "expected COLON" k := ⟨_, List.mem_of_getElem? (i := 1) rfl, h⟩
theorem row2 (h : k ∉ [R_PAREN]) : Right "expected R_PAREN" k := ⟨_, List.mem_of_getElem? (i := 2) rfl, h⟩
theorem row3 (h : k ∉ [R_BRACE]) : Right "expected R_BRACE" k := ⟨_, List.mem_of_getElem? (i := 3) rfl, h⟩
theorem row4 (h : k ∉ [GT]) : Right "expected GT" k := ⟨_, List.mem_of_getElem? (i := 4) rfl, h⟩
theorem row5 (h : k ∉ [SEMICOLON]) : Right "expected SEMICOLON" k := ⟨_, List.mem_of_getElem? (i := 5) rfl, h⟩
theorem row6 (h : k ∉ [IDENT]) : Right "expected a name" k := ⟨_, List.mem_of_getElem? (i := 6) rfl, h⟩
theorem row7 (h : k ∉ [IDENT]) : Right "expected ident" k := ⟨_, List.mem_of_getElem? (i := 7) rfl, h⟩
theorem row8 (h : k ∉ [IDENT]) : Right "expected identifier" k := ⟨_, List.mem_of_getElem? (i := 8) rfl, h⟩
theorem row9 (h : k ∉ [IDENT]) : Right "expected a field" k := ⟨_, List.mem_of_getElem? (i := 9) rfl, h⟩
theorem row10 (h : k ∉ [IDENT]) : Right "expected field name" k := ⟨_, List.mem_of_getElem? (i := 10) rfl, h⟩
theorem row11 (h : k ∉ [IDENT]) : Right "expected field declaration" k := ⟨_, List.mem_of_getElem? (i := 11) rfl, h⟩
theorem row12 (h : k ∉ [IDENT]) : Right "expected type parameter" k := ⟨_, List.mem_of_getElem? (i := 12) rfl, h⟩
theorem row13 (h : k ∉ [IDENT]) : Right "expected value parameter" k := ⟨_, List.mem_of_getElem? (i := 13) rfl, h⟩
theorem row14 (h : k ∉ [IDENT, AMP]) : Right "expected type" k := ⟨_, List.mem_of_getElem? (i := 14) rfl, h⟩
theorem row15 (h : k ∉ [COLON]) : Right "missing type for function parameter" k := ⟨_, List.mem_of_getElem? (i := 15) rfl, h⟩
theorem row16 (h : k ∉ [IDENT, MUT_KW, WILDCARD, L_PAREN]) : Right "expected a pattern" k := ⟨_, List.mem_of_getElem? (i := 16) rfl, h⟩
theorem row17 (h : k ∉ [IDENT, MUT_KW, WILDCARD, L_PAREN]) : Right "expected pattern" k := ⟨_, List.mem_of_getElem? (i := 17) rfl, h⟩
theorem row18 (h : k ∉ [IDENT]) : Right "expected address literal" k := ⟨_, List.mem_of_getElem? (i := 18) rfl, h⟩
theorem row19 (h : k ∉ [IDENT]) : Right "expected valid address" k := ⟨_, List.mem_of_getElem? (i := 19) rfl, h⟩
theorem row20 (h : k ∉ exprStart) : Right "expected expression" k := ⟨_, List.mem_of_getElem? (i := 20) rfl, h⟩
theorem row21 (h : k ∉ [L_BRACE]) : Right "expected a block" k := ⟨_, List.mem_of_getElem? (i := 21) rfl, h⟩
theorem row22 (h : k ∉ [L_BRACE]) : Right "expected `{`" k := ⟨_, List.mem_of_getElem? (i := 22) rfl, h⟩
theorem row23 (h : k ∉ [SEMICOLON, L_BRACE]) : Right "expected `;` or `{`" k := ⟨_, List.mem_of_getElem? (i := 23) rfl, h⟩
theorem row24 (h : k ∉ [L_PAREN]) : Right "expected function arguments" k := ⟨_, List.mem_of_getElem? (i := 24) rfl, h⟩
theorem row25 (h : k ∉ [FUN_KW, STRUCT_KW]) : Right "expected an item" k := ⟨_, List.mem_of_getElem? (i := 25) rfl, h⟩
theorem row26 (h : k = SEMICOLON) : Right "expected item, found `;`\nconsider removing this semicolon" k := ⟨_, List.mem_of_getElem? (i := 26) rfl, by subst h; decide⟩
theorem row27 (h : k ∉ [MODULE_KW, SCRIPT_KW, ADDRESS_KW]) : Right "expected module or script" k := ⟨_, List.mem_of_getElem? (i := 27) rfl, h⟩

/-- A message is right. -/
macro "told" : tactic => `(tactic| focus (
  first
  | with_reducible refine row0 ?_
  | with_reducible refine row1 ?_
  | with_reducible refine row2 ?_
  | with_reducible refine row3 ?_
  | with_reducible refine row4 ?_
  | with_reducible refine row5 ?_
  | with_reducible refine row6 ?_
  | with_reducible refine row7 ?_
  | with_reducible refine row8 ?_
  | with_reducible refine row9 ?_
  | with_reducible refine row10 ?_
  | with_reducible refine row11 ?_
  | with_reducible refine row12 ?_
  | with_reducible refine row13 ?_
  | with_reducible refine row14 ?_
  | with_reducible refine row15 ?_
  | with_reducible refine row16 ?_
  | with_reducible refine row17 ?_
  | with_reducible refine row18 ?_
  | with_reducible refine row19 ?_
  | with_reducible refine row20 ?_
  | with_reducible refine row21 ?_
  | with_reducible refine row22 ?_
  | with_reducible refine row23 ?_
  | with_reducible refine row24 ?_
  | with_reducible refine row25 ?_
  | with_reducible refine row26 ?_
  | with_reducible refine row27 ?_
  first
  | with_reducible rfl
  | assumption
  | (simp only [exprStart, List.mem_cons, List.not_mem_nil, or_false, not_or, reduceCtorEq, not_false_eq_true, and_self]; done)
  | (simp only [exprStart, List.mem_cons, List.not_mem_nil, or_false, not_or]
     simp only [*, not_false_eq_true, and_self, ne_eq]; done)
  | (simp only [exprStart, List.mem_cons, List.not_mem_nil, or_false, not_or]; simp_all; done)))

theorem right_COMMA (h : k ≠ COMMA) : Right ("expected " ++ Kind.debugName COMMA) k := by
  rw [show "expected " ++ Kind.debugName COMMA = "expected COMMA" by decide +kernel]
  exact row0 (by simpa using h)

theorem right_COLON (h : k ≠ COLON) : Right ("expected " ++ Kind.debugName COLON) k := by
  rw [show "expected " ++ Kind.debugName COLON = "expected COLON" by decide +kernel]
  exact row1 (by simpa using h)

theorem right_R_PAREN (h : k ≠ R_PAREN) : Right ("expected " ++ Kind.debugName R_PAREN) k := by
  rw [show "expected " ++ Kind.debugName R_PAREN = "expected R_PAREN" by decide +kernel]
  exact row2 (by simpa using h)

theorem right_R_BRACE (h : k ≠ R_BRACE) : Right ("expected " ++ Kind.debugName R_BRACE) k := by
  rw [show "expected " ++ Kind.debugName R_BRACE = "expected R_BRACE" by decide +kernel]
  exact row3 (by simpa using h)

theorem right_GT (h : k ≠ GT) : Right ("expected " ++ Kind.debugName GT) k := by
  rw [show "expected " ++ Kind.debugName GT = "expected GT" by decide +kernel]
  exact row4 (by simpa using h)

theorem right_SEMICOLON (h : k ≠ SEMICOLON) : Right ("expected " ++ Kind.debugName SEMICOLON) k := by
  rw [show "expected " ++ Kind.debugName SEMICOLON = "expected SEMICOLON" by decide +kernel]
  exact row5 (by simpa using h)

/-- Such a token is wanted. -/
macro "wanted" : tactic => `(tactic| (intro hwant; first
  | (exact absurd rfl hwant)
  | with_reducible exact right_COMMA hwant
  | with_reducible exact right_COLON hwant
  | with_reducible exact right_R_PAREN hwant
  | with_reducible exact right_R_BRACE hwant
  | with_reducible exact right_GT hwant
  | with_reducible exact right_SEMICOLON hwant
))

syntax "tlr" : tactic
macro_rules | `(tactic| tlr) => `(tactic| split)
set_option hygiene false in
macro_rules | `(tactic| tlr) => `(tactic|
  ((with_reducible apply tl_ite (fun hcond => ?_) (fun hcond => ?_)) <;> ckc hcond))
macro_rules | `(tactic| tlr) => `(tactic| with_reducible apply tl_bind ?_)
macro_rules | `(tactic| tlr) => `(tactic| with_reducible apply tl_pure ?_)
macro_rules | `(tactic| tlr) => `(tactic| with_reducible apply tl_ret ?_)
macro_rules | `(tactic| tlr) => `(tactic| with_reducible apply tl_current ?_)
macro_rules | `(tactic| tlr) => `(tactic| with_reducible apply tl_currentText (fun _ => ?_))
macro_rules | `(tactic| tlr) => `(tactic| (with_reducible apply tl_nth (fun _ => ?_)))
macro_rules | `(tactic| tlr) => `(tactic| (with_reducible apply tl_nthAt (fun _ => ?_)))
set_option hygiene false in
macro_rules | `(tactic| tlr) => `(tactic| ((with_reducible apply tl_at (fun hcond => ?_) (fun hcond => ?_)) <;> ckc hcond))
set_option hygiene false in
macro_rules | `(tactic| tlr) => `(tactic| ((with_reducible apply tl_eat (fun hcond _ => ?_) (fun hcond => ?_)) <;> ckc hcond))
set_option hygiene false in
macro_rules | `(tactic| tlr) => `(tactic|
  ((with_reducible apply tl_expect ?_ (fun hcond _ => ?_) (fun hcond => ?_)); wanted; all_goals ckc hcond))
set_option hygiene false in
macro_rules | `(tactic| tlr) => `(tactic| ((with_reducible apply tl_assert (fun hcond => ?_)); ckc hcond))
set_option hygiene false in
macro_rules | `(tactic| tlr) => `(tactic| ((with_reducible apply tl_bump (fun hcond _ => ?_)); ckc hcond))
set_option hygiene false in
macro_rules | `(tactic| tlr) => `(tactic| ((with_reducible apply tl_bumpAny (fun hcond => ?_) (fun hcond _ => ?_)) <;> ckc hcond))
macro_rules | `(tactic| tlr) => `(tactic| (with_reducible apply tl_bumpRemap (fun _ => ?_)))
set_option hygiene false in
macro_rules | `(tactic| tlr) => `(tactic| ((with_reducible apply tl_atTs (fun hcond => ?_) (fun hcond => ?_)) <;> ckc hcond))
macro_rules | `(tactic| tlr) => `(tactic| (with_reducible apply tl_start (fun _ => ?_)))
macro_rules | `(tactic| tlr) => `(tactic| ((with_reducible apply tl_error ?_ ?_); told))
macro_rules | `(tactic| tlr) => `(tactic| (with_reducible apply tl_complete (fun _ => ?_)))
macro_rules | `(tactic| tlr) => `(tactic| (with_reducible apply tl_abandon ?_))
macro_rules | `(tactic| tlr) => `(tactic| (with_reducible apply tl_precede (fun _ => ?_)))
set_option hygiene false in
macro_rules | `(tactic| tlr) => `(tactic| (with_reducible apply tl_call (fun _ _ hret => ?_)))
macro_rules | `(tactic| tlr) => `(tactic| (with_reducible apply tl_neither (fun _ => ?_)))
macro_rules | `(tactic| tlr) => `(tactic| ((with_reducible apply tl_errRecover ?_ (fun _ => ?_)); told))
macro_rules | `(tactic| tlr) => `(tactic| ((with_reducible apply tl_errAndBump ?_ (fun _ => ?_)); told))
macro_rules | `(tactic| tlr) => `(tactic| ((with_reducible apply tl_errorAndSkipUntil ?_ (fun _ _ => ?_)); told))
macro_rules | `(tactic| tlr) => `(tactic| ((with_reducible apply tl_errorBlock (fun _ => ?_) (fun _ => ?_)); told))
set_option hygiene false in
macro_rules | `(tactic| tlr) => `(tactic| ((with_reducible apply tl_isPathStart (fun hcond => ?_) (fun hcond => ?_)) <;> ckc hcond))
macro_rules | `(tactic| tlr) => `(tactic| (with_reducible apply tl_bumpAddress (fun _ => ?_) (fun _ => ?_)))

/-- All rules. -/
macro "tl" : tactic => `(tactic| repeat' (first
  | with_reducible exact True.intro
  | exact absurd ‹false = true› Bool.false_ne_true
  | with_reducible apply tl_bind
  | with_reducible apply tl_pure
  | tlr))

theorem tl_skipUntilBody {endTokens : TokenSet} {Q : Unit → Kind → Prop} (hq : ∀ a y, Q a y) : Tl (skipUntilBody endTokens) k Q := by
  refine tl_use (fun k => ?_) hq
  unfold skipUntilBody
  tl

macro_rules | `(tactic| tlr) => `(tactic| with_reducible apply tl_skipUntilBody (fun _ _ => ?_))

theorem tl_nameR {recovery : TokenSet} {Q : Unit → Kind → Prop} (hq : ∀ a y, Q a y) : Tl (nameR recovery) k Q := by
  refine tl_use (fun k => ?_) hq
  unfold nameR
  tl

macro_rules | `(tactic| tlr) => `(tactic| with_reducible apply tl_nameR (fun _ _ => ?_))

theorem tl_name {Q : Unit → Kind → Prop} (hq : ∀ a y, Q a y) : Tl name k Q := by
  refine tl_use (fun k => ?_) hq
  unfold name
  tl

macro_rules | `(tactic| tlr) => `(tactic| with_reducible apply tl_name (fun _ _ => ?_))

theorem tl_nameRef {Q : Unit → Kind → Prop} (hq : ∀ a y, Q a y) : Tl nameRef k Q := by
  refine tl_use (fun k => ?_) hq
  unfold nameRef
  tl

macro_rules | `(tactic| tlr) => `(tactic| with_reducible apply tl_nameRef (fun _ _ => ?_))

theorem tl_pathSegment {first : Bool} {Q : Unit → Kind → Prop} (hq : ∀ a y, Q a y) : Tl (pathSegment first) k Q := by
  refine tl_use (fun k => ?_) hq
  unfold pathSegment
  tl

macro_rules | `(tactic| tlr) => `(tactic| with_reducible apply tl_pathSegment (fun _ _ => ?_))

theorem tl_path {Q : Unit → Kind → Prop} (hq : ∀ a y, Q a y) : Tl path k Q := by
  refine tl_use (fun k => ?_) hq
  unfold path
  tl

macro_rules | `(tactic| tlr) => `(tactic| with_reducible apply tl_path (fun _ _ => ?_))

theorem tl_pathLoopBody {qual : Completed} {Q : Unit → Kind → Prop} (hq : ∀ a y, Q a y) : Tl (pathLoopBody qual) k Q := by
  refine tl_use (fun k => ?_) hq
  unfold pathLoopBody
  tl

macro_rules | `(tactic| tlr) => `(tactic| with_reducible apply tl_pathLoopBody (fun _ _ => ?_))

theorem tl_refType {Q : Unit → Kind → Prop} (hq : ∀ a y, Q a y) : Tl refType k Q := by
  refine tl_use (fun k => ?_) hq
  unfold refType
  tl

macro_rules | `(tactic| tlr) => `(tactic| with_reducible apply tl_refType (fun _ _ => ?_))

theorem tl_pathType {Q : Unit → Kind → Prop} (hq : ∀ a y, Q a y) : Tl pathType k Q := by
  refine tl_use (fun k => ?_) hq
  unfold pathType
  tl

macro_rules | `(tactic| tlr) => `(tactic| with_reducible apply tl_pathType (fun _ _ => ?_))

theorem tl_typeBody {Q : Unit → Kind → Prop} (hq : ∀ a y, Q a y) : Tl typeBody k Q := by
  refine tl_use (fun k => ?_) hq
  unfold typeBody
  tl

macro_rules | `(tactic| tlr) => `(tactic| with_reducible apply tl_typeBody (fun _ _ => ?_))

theorem tl_ascription {Q : Unit → Kind → Prop} (hq : ∀ a y, Q a y) : Tl ascription k Q := by
  refine tl_use (fun k => ?_) hq
  unfold ascription
  tl

macro_rules | `(tactic| tlr) => `(tactic| with_reducible apply tl_ascription (fun _ _ => ?_))

theorem tl_typeBound {Q : Bool → Kind → Prop} (hq : ∀ a y, Q a y) : Tl typeBound k Q := by
  refine tl_use (fun k => ?_) hq
  unfold typeBound
  tl

macro_rules | `(tactic| tlr) => `(tactic| with_reducible apply tl_typeBound (fun _ _ => ?_))

theorem tl_boundsLoopBody {Q : Unit → Kind → Prop} (hq : ∀ a y, Q a y) : Tl boundsLoopBody k Q := by
  refine tl_use (fun k => ?_) hq
  unfold boundsLoopBody
  tl

macro_rules | `(tactic| tlr) => `(tactic| with_reducible apply tl_boundsLoopBody (fun _ _ => ?_))

theorem tl_bounds {Q : Unit → Kind → Prop} (hq : ∀ a y, Q a y) : Tl bounds k Q := by
  refine tl_use (fun k => ?_) hq
  unfold bounds
  tl

macro_rules | `(tactic| tlr) => `(tactic| with_reducible apply tl_bounds (fun _ _ => ?_))

theorem tl_typeParam {m : Marker} {Q : Unit → Kind → Prop} (hq : ∀ a y, Q a y) : Tl (typeParam m) k Q := by
  refine tl_use (fun k => ?_) hq
  unfold typeParam
  tl

macro_rules | `(tactic| tlr) => `(tactic| with_reducible apply tl_typeParam (fun _ _ => ?_))

theorem tl_genericParam {Q : Unit → Kind → Prop} (hq : ∀ a y, Q a y) : Tl genericParam k Q := by
  refine tl_use (fun k => ?_) hq
  unfold genericParam
  tl

macro_rules | `(tactic| tlr) => `(tactic| with_reducible apply tl_genericParam (fun _ _ => ?_))

theorem tl_genericParamLoopBody {Q : Unit → Kind → Prop} (hq : ∀ a y, Q a y) : Tl genericParamLoopBody k Q := by
  refine tl_use (fun k => ?_) hq
  unfold genericParamLoopBody
  tl

macro_rules | `(tactic| tlr) => `(tactic| with_reducible apply tl_genericParamLoopBody (fun _ _ => ?_))

theorem tl_genericParamList {Q : Unit → Kind → Prop} (hq : ∀ a y, Q a y) : Tl genericParamList k Q := by
  refine tl_use (fun k => ?_) hq
  unfold genericParamList
  tl

macro_rules | `(tactic| tlr) => `(tactic| with_reducible apply tl_genericParamList (fun _ _ => ?_))

theorem tl_optGenericParamList {Q : Unit → Kind → Prop} (hq : ∀ a y, Q a y) : Tl optGenericParamList k Q := by
  refine tl_use (fun k => ?_) hq
  unfold optGenericParamList
  tl

macro_rules | `(tactic| tlr) => `(tactic| with_reducible apply tl_optGenericParamList (fun _ _ => ?_))

theorem tl_param {m : Marker} {Q : Unit → Kind → Prop} (hq : ∀ a y, Q a y) : Tl (param m) k Q := by
  refine tl_use (fun k => ?_) hq
  unfold param
  tl

macro_rules | `(tactic| tlr) => `(tactic| with_reducible apply tl_param (fun _ _ => ?_))

theorem tl_paramLoopBody {Q : Unit → Kind → Prop} (hq : ∀ a y, Q a y) : Tl paramLoopBody k Q := by
  refine tl_use (fun k => ?_) hq
  unfold paramLoopBody
  refine tl_bind (tl_neither fun r => tl_ite (fun _ => tl_bind (tl_start fun m => tl_bind (tl_atTs (fun h => ?_) fun h => ?_))) fun _ => trivial)
  · tl
  · have h := type_first h
    tl

theorem tl_paramList {Q : Unit → Kind → Prop} (hq : ∀ a y, Q a y) : Tl paramList k Q := by
  refine tl_use (fun k => ?_) hq
  unfold paramList
  tl

macro_rules | `(tactic| tlr) => `(tactic| with_reducible apply tl_paramList (fun _ _ => ?_))

theorem tl_identPat {Q : Unit → Kind → Prop} (hq : ∀ a y, Q a y) : Tl identPat k Q := by
  refine tl_use (fun k => ?_) hq
  unfold identPat
  tl

macro_rules | `(tactic| tlr) => `(tactic| with_reducible apply tl_identPat (fun _ _ => ?_))

theorem tl_restPat {Q : Unit → Kind → Prop} (hq : ∀ a y, Q a y) : Tl restPat k Q := by
  refine tl_use (fun k => ?_) hq
  unfold restPat
  tl

macro_rules | `(tactic| tlr) => `(tactic| with_reducible apply tl_restPat (fun _ _ => ?_))

theorem tl_wildcardPat {Q : Unit → Kind → Prop} (hq : ∀ a y, Q a y) : Tl wildcardPat k Q := by
  refine tl_use (fun k => ?_) hq
  unfold wildcardPat
  tl

macro_rules | `(tactic| tlr) => `(tactic| with_reducible apply tl_wildcardPat (fun _ _ => ?_))

theorem tl_tuplePatLoopBody {a b c : Bool} {Q : Bool × Bool × Bool → Kind → Prop} (hq : ∀ a y, Q a y) : Tl (tuplePatLoopBody a b c) k Q := by
  refine tl_use (fun k => ?_) hq
  unfold tuplePatLoopBody
  refine tl_bind (tl_neither fun r => tl_ite (fun _ => tl_bind (tl_atTs (fun h => ?_) fun h => ?_)) fun _ => trivial)
  · tl
  · have h := pattern_first h
    tl

theorem tl_tuplePat {Q : Unit → Kind → Prop} (hq : ∀ a y, Q a y) : Tl tuplePat k Q := by
  refine tl_use (fun k => ?_) hq
  unfold tuplePat
  tl

macro_rules | `(tactic| tlr) => `(tactic| with_reducible apply tl_tuplePat (fun _ _ => ?_))

theorem tl_recordPatField {Q : Unit → Kind → Prop} (hq : ∀ a y, Q a y) : Tl recordPatField k Q := by
  refine tl_use (fun k => ?_) hq
  unfold recordPatField
  tl

macro_rules | `(tactic| tlr) => `(tactic| with_reducible apply tl_recordPatField (fun _ _ => ?_))

theorem tl_recordPatEntry {Q : Unit → Kind → Prop} (hq : ∀ a y, Q a y) : Tl recordPatEntry k Q := by
  refine tl_use (fun k => ?_) hq
  unfold recordPatEntry
  tl

macro_rules | `(tactic| tlr) => `(tactic| with_reducible apply tl_recordPatEntry (fun _ _ => ?_))

theorem tl_recordPatLoopBody {Q : Unit → Kind → Prop} (hq : ∀ a y, Q a y) : Tl recordPatLoopBody k Q := by
  refine tl_use (fun k => ?_) hq
  unfold recordPatLoopBody
  tl

macro_rules | `(tactic| tlr) => `(tactic| with_reducible apply tl_recordPatLoopBody (fun _ _ => ?_))

theorem tl_recordPatFieldList {Q : Unit → Kind → Prop} (hq : ∀ a y, Q a y) : Tl recordPatFieldList k Q := by
  refine tl_use (fun k => ?_) hq
  unfold recordPatFieldList
  tl

macro_rules | `(tactic| tlr) => `(tactic| with_reducible apply tl_recordPatFieldList (fun _ _ => ?_))

theorem tl_pathPat {Q : Unit → Kind → Prop} (hq : ∀ a y, Q a y) : Tl pathPat k Q := by
  refine tl_use (fun k => ?_) hq
  unfold pathPat
  tl

macro_rules | `(tactic| tlr) => `(tactic| with_reducible apply tl_pathPat (fun _ _ => ?_))

theorem tl_patternBody {Q : Unit → Kind → Prop} (hq : ∀ a y, Q a y) : Tl patternBody k Q := by
  refine tl_use (fun k => ?_) hq
  unfold patternBody patternRest
  tl

theorem tl_addressLit {Q : Completed → Kind → Prop} (hq : ∀ a y, Q a y) : Tl addressLit k Q := by
  refine tl_use (fun k => ?_) hq
  unfold addressLit
  tl

macro_rules | `(tactic| tlr) => `(tactic| with_reducible apply tl_addressLit (fun _ _ => ?_))

theorem tl_literal {Q : Option Completed → Kind → Prop}
    (hn : k ∉ [TRUE_KW, FALSE_KW, INTEGER_NUMBER, HEX_STRING, BYTE_STRING, ATSIGN] → Q none k)
    (hs : ∀ c y, Q (some c) y) : Tl literal k Q := by
  unfold literal
  refine tl_bind (tl_atTs (fun h => ?_) fun h => tl_pure (hn (literal_first h)))
  simp only [Bool.not_true, Bool.false_eq_true, if_false]
  refine tl_bind (tl_start fun m => tl_bind (tl_current (tl_ite (fun h => ?_) fun h => ?_)))
  · refine tl_bind (tl_addressLit fun _ y => ?_)
    exact tl_bind (tl_complete fun r => tl_pure (hs _ _))
  · refine tl_bind (tl_bumpAny (fun _ => ?_) fun _ y => ?_) <;> exact tl_bind (tl_complete fun r => tl_pure (hs _ _))

theorem tl_expr {Q : Option Completed → Kind → Prop} (h : ∀ c y, Q (some c) y) : Tl expr k Q :=
  tl_call fun r y hr => by
    cases r with
    | some c => exact h c y
    | none => cases hr

macro_rules | `(tactic| tlr) => `(tactic| (with_reducible apply tl_expr (fun _ _ => ?_)))

theorem tl_parenLoopBody {Q : Bool → Kind → Prop} (hq : ∀ a y, Q a y) : Tl parenLoopBody k Q := by
  refine tl_use (fun k => ?_) hq
  unfold parenLoopBody
  tl

macro_rules | `(tactic| tlr) => `(tactic| with_reducible apply tl_parenLoopBody (fun _ _ => ?_))

theorem tl_parenExpr {Q : Completed → Kind → Prop} (hq : ∀ a y, Q a y) : Tl parenExpr k Q := by
  refine tl_use (fun k => ?_) hq
  unfold parenExpr
  tl

macro_rules | `(tactic| tlr) => `(tactic| with_reducible apply tl_parenExpr (fun _ _ => ?_))

theorem tl_blockLoopBody {Q : Unit → Kind → Prop} (hq : ∀ a y, Q a y) : Tl blockLoopBody k Q := by
  refine tl_use (fun k => ?_) hq
  unfold blockLoopBody
  tl

macro_rules | `(tactic| tlr) => `(tactic| with_reducible apply tl_blockLoopBody (fun _ _ => ?_))

theorem tl_blockExprUnchecked {Q : Completed → Kind → Prop} (hq : ∀ a y, Q a y) : Tl blockExprUnchecked k Q := by
  refine tl_use (fun k => ?_) hq
  unfold blockExprUnchecked
  tl

macro_rules | `(tactic| tlr) => `(tactic| with_reducible apply tl_blockExprUnchecked (fun _ _ => ?_))

theorem tl_blockExpr {Q : Unit → Kind → Prop} (hq : ∀ a y, Q a y) : Tl blockExpr k Q := by
  refine tl_use (fun k => ?_) hq
  unfold blockExpr
  tl

macro_rules | `(tactic| tlr) => `(tactic| with_reducible apply tl_blockExpr (fun _ _ => ?_))

theorem tl_recordExprField {Q : Unit → Kind → Prop} (hq : ∀ a y, Q a y) : Tl recordExprField k Q := by
  refine tl_use (fun k => ?_) hq
  unfold recordExprField
  tl

macro_rules | `(tactic| tlr) => `(tactic| with_reducible apply tl_recordExprField (fun _ _ => ?_))

theorem tl_recordExprLoopBody {Q : Unit → Kind → Prop} (hq : ∀ a y, Q a y) : Tl recordExprLoopBody k Q := by
  refine tl_use (fun k => ?_) hq
  unfold recordExprLoopBody
  tl

macro_rules | `(tactic| tlr) => `(tactic| with_reducible apply tl_recordExprLoopBody (fun _ _ => ?_))

theorem tl_recordExprFieldList {Q : Unit → Kind → Prop} (hq : ∀ a y, Q a y) : Tl recordExprFieldList k Q := by
  refine tl_use (fun k => ?_) hq
  unfold recordExprFieldList
  tl

macro_rules | `(tactic| tlr) => `(tactic| with_reducible apply tl_recordExprFieldList (fun _ _ => ?_))

theorem tl_pathExpr {Q : Completed → Kind → Prop} (hq : ∀ a y, Q a y) : Tl pathExpr k Q := by
  refine tl_use (fun k => ?_) hq
  unfold pathExpr
  tl

macro_rules | `(tactic| tlr) => `(tactic| with_reducible apply tl_pathExpr (fun _ _ => ?_))

theorem tl_atomExpr (h : k ≠ STAR ∧ k ≠ BANG ∧ k ≠ MINUS) : Tl atomExpr k fun r _ => r.isSome = true := by
  unfold atomExpr
  obtain ⟨h1, h2, h3⟩ := h
  refine tl_bind (tl_literal (fun h => ?_) fun c y => rfl)
  simp only [List.mem_cons, List.not_mem_nil, or_false, not_or] at h
  obtain ⟨g1, g2, g3, g4, g5, g6⟩ := h
  tl
  all_goals rfl

theorem tl_argLoopBody {Q : Unit → Kind → Prop} (hq : ∀ a y, Q a y) : Tl argLoopBody k Q := by
  refine tl_use (fun k => ?_) hq
  unfold argLoopBody
  tl

macro_rules | `(tactic| tlr) => `(tactic| with_reducible apply tl_argLoopBody (fun _ _ => ?_))

theorem tl_argList {Q : Unit → Kind → Prop} (hq : ∀ a y, Q a y) : Tl argList k Q := by
  refine tl_use (fun k => ?_) hq
  unfold argList
  tl

macro_rules | `(tactic| tlr) => `(tactic| with_reducible apply tl_argList (fun _ _ => ?_))

theorem tl_callExpr {lhs : Completed} {Q : Completed → Kind → Prop} (hq : ∀ a y, Q a y) : Tl (callExpr lhs) k Q := by
  refine tl_use (fun k => ?_) hq
  unfold callExpr
  tl

macro_rules | `(tactic| tlr) => `(tactic| with_reducible apply tl_callExpr (fun _ _ => ?_))

theorem tl_fieldExpr {lhs : Completed} {Q : Completed → Kind → Prop} (hq : ∀ a y, Q a y) : Tl (fieldExpr lhs) k Q := by
  refine tl_use (fun k => ?_) hq
  unfold fieldExpr
  tl

macro_rules | `(tactic| tlr) => `(tactic| with_reducible apply tl_fieldExpr (fun _ _ => ?_))

theorem tl_postfixLoopBody {lhs : Completed} {Q : Completed → Kind → Prop} (hq : ∀ a y, Q a y) : Tl (postfixLoopBody lhs) k Q := by
  refine tl_use (fun k => ?_) hq
  unfold postfixLoopBody
  tl

macro_rules | `(tactic| tlr) => `(tactic| with_reducible apply tl_postfixLoopBody (fun _ _ => ?_))

theorem tl_lhsExpr : Tl lhsExpr k fun r _ => r.isSome = true := by
  unfold lhsExpr
  refine tl_bind (tl_current (tl_ite (fun h => ?_) fun h => ?_))
  · refine tl_bind (tl_start fun m => ?_)
    refine tl_bind (tl_bumpAny (fun _ => ?_) fun _ y => ?_) <;>
      exact tl_bind (tl_call fun _ _ _ => tl_bind (tl_complete fun r => rfl))
  · simp only [Bool.or_eq_true, beq_iff_eq, not_or] at h
    refine tl_bind (tl_mono (tl_atomExpr ⟨h.1.1, h.1.2, h.2⟩) fun r y hr => ?_)
    cases r with
    | none => cases hr
    | some c => exact tl_bind (tl_call fun _ _ _ => rfl)

theorem tl_exprBpLoopBody {bp : Nat} {lhs : Completed} {Q : Completed → Kind → Prop} (hq : ∀ a y, Q a y) : Tl (exprBpLoopBody bp lhs) k Q := by
  refine tl_use (fun k => ?_) hq
  unfold exprBpLoopBody currentOp
  tl

macro_rules | `(tactic| tlr) => `(tactic| with_reducible apply tl_exprBpLoopBody (fun _ _ => ?_))

theorem tl_exprBpBody {bp : Nat} : Tl (exprBpBody bp) k fun r _ => r.isSome = true := by
  unfold exprBpBody
  refine tl_bind (tl_mono tl_lhsExpr fun r y hr => ?_)
  cases r with
  | none => cases hr
  | some c => exact tl_bind (tl_call fun _ _ _ => rfl)

theorem tl_semi {withSemi : StmtWithSemi} {Q : Unit → Kind → Prop} (hq : ∀ a y, Q a y) : Tl (semi withSemi) k Q := by
  refine tl_use (fun k => ?_) hq
  unfold semi
  tl

macro_rules | `(tactic| tlr) => `(tactic| with_reducible apply tl_semi (fun _ _ => ?_))

theorem tl_letStmt {m : Marker} {withSemi : StmtWithSemi} {Q : Unit → Kind → Prop} (hq : ∀ a y, Q a y) : Tl (letStmt m withSemi) k Q := by
  refine tl_use (fun k => ?_) hq
  unfold letStmt
  tl

macro_rules | `(tactic| tlr) => `(tactic| with_reducible apply tl_letStmt (fun _ _ => ?_))

theorem tl_stmtBody {withSemi : StmtWithSemi} {Q : Unit → Kind → Prop} (hq : ∀ a y, Q a y) : Tl (stmtBody withSemi) k Q := by
  refine tl_use (fun k => ?_) hq
  unfold stmtBody
  tl

macro_rules | `(tactic| tlr) => `(tactic| with_reducible apply tl_stmtBody (fun _ _ => ?_))

theorem tl_exprBlockLoopBody {Q : Unit → Kind → Prop} (hq : ∀ a y, Q a y) : Tl exprBlockLoopBody k Q := by
  refine tl_use (fun k => ?_) hq
  unfold exprBlockLoopBody
  tl

macro_rules | `(tactic| tlr) => `(tactic| with_reducible apply tl_exprBlockLoopBody (fun _ _ => ?_))

theorem tl_recordField {Q : Unit → Kind → Prop} (hq : ∀ a y, Q a y) : Tl recordField k Q := by
  refine tl_use (fun k => ?_) hq
  unfold recordField
  tl

macro_rules | `(tactic| tlr) => `(tactic| with_reducible apply tl_recordField (fun _ _ => ?_))

theorem tl_recordFieldLoopBody {Q : Unit → Kind → Prop} (hq : ∀ a y, Q a y) : Tl recordFieldLoopBody k Q := by
  refine tl_use (fun k => ?_) hq
  unfold recordFieldLoopBody
  tl

macro_rules | `(tactic| tlr) => `(tactic| with_reducible apply tl_recordFieldLoopBody (fun _ _ => ?_))

theorem tl_recordFieldList {Q : Unit → Kind → Prop} (hq : ∀ a y, Q a y) : Tl recordFieldList k Q := by
  refine tl_use (fun k => ?_) hq
  unfold recordFieldList
  tl

macro_rules | `(tactic| tlr) => `(tactic| with_reducible apply tl_recordFieldList (fun _ _ => ?_))

theorem tl_structDef {m : Marker} {Q : Unit → Kind → Prop} (hq : ∀ a y, Q a y) : Tl (structDef m) k Q := by
  refine tl_use (fun k => ?_) hq
  unfold structDef
  tl

macro_rules | `(tactic| tlr) => `(tactic| with_reducible apply tl_structDef (fun _ _ => ?_))

theorem tl_optRetType {Q : Unit → Kind → Prop} (hq : ∀ a y, Q a y) : Tl optRetType k Q := by
  refine tl_use (fun k => ?_) hq
  unfold optRetType
  tl

macro_rules | `(tactic| tlr) => `(tactic| with_reducible apply tl_optRetType (fun _ _ => ?_))

theorem tl_functionDef {m : Marker} {Q : Unit → Kind → Prop} (hq : ∀ a y, Q a y) : Tl (functionDef m) k Q := by
  refine tl_use (fun k => ?_) hq
  unfold functionDef
  tl

macro_rules | `(tactic| tlr) => `(tactic| with_reducible apply tl_functionDef (fun _ _ => ?_))

theorem tl_optItem {m : Marker} {Q : Unit → Kind → Prop} (hq : ∀ a y, Q a y) : Tl (optItem m) k Q := by
  refine tl_use (fun k => ?_) hq
  unfold optItem
  tl

macro_rules | `(tactic| tlr) => `(tactic| with_reducible apply tl_optItem (fun _ _ => ?_))

theorem tl_item {Q : Unit → Kind → Prop} (hq : ∀ a y, Q a y) : Tl item k Q := by
  refine tl_use (fun k => ?_) hq
  unfold item
  tl

macro_rules | `(tactic| tlr) => `(tactic| with_reducible apply tl_item (fun _ _ => ?_))

theorem tl_itemLoopBody {Q : Unit → Kind → Prop} (hq : ∀ a y, Q a y) : Tl itemLoopBody k Q := by
  refine tl_use (fun k => ?_) hq
  unfold itemLoopBody
  tl

macro_rules | `(tactic| tlr) => `(tactic| with_reducible apply tl_itemLoopBody (fun _ _ => ?_))

theorem tl_itemList {Q : Unit → Kind → Prop} (hq : ∀ a y, Q a y) : Tl itemList k Q := by
  refine tl_use (fun k => ?_) hq
  unfold itemList
  tl

macro_rules | `(tactic| tlr) => `(tactic| with_reducible apply tl_itemList (fun _ _ => ?_))

theorem tl_addressIdentR {recoveryTokens : TokenSet} {Q : Unit → Kind → Prop} (hq : ∀ a y, Q a y) : Tl (addressIdentR recoveryTokens) k Q := by
  refine tl_use (fun k => ?_) hq
  unfold addressIdentR
  tl

macro_rules | `(tactic| tlr) => `(tactic| with_reducible apply tl_addressIdentR (fun _ _ => ?_))

theorem tl_itemListOrSemi {Q : Unit → Kind → Prop} (hq : ∀ a y, Q a y) : Tl itemListOrSemi k Q := by
  refine tl_use (fun k => ?_) hq
  unfold itemListOrSemi
  tl

macro_rules | `(tactic| tlr) => `(tactic| with_reducible apply tl_itemListOrSemi (fun _ _ => ?_))

theorem tl_moduleDef {Q : Unit → Kind → Prop} (hq : ∀ a y, Q a y) : Tl moduleDef k Q := by
  refine tl_use (fun k => ?_) hq
  unfold moduleDef
  tl

macro_rules | `(tactic| tlr) => `(tactic| with_reducible apply tl_moduleDef (fun _ _ => ?_))

theorem tl_addressItemLoopBody {Q : Unit → Kind → Prop} (hq : ∀ a y, Q a y) : Tl addressItemLoopBody k Q := by
  refine tl_use (fun k => ?_) hq
  unfold addressItemLoopBody
  tl

macro_rules | `(tactic| tlr) => `(tactic| with_reducible apply tl_addressItemLoopBody (fun _ _ => ?_))

theorem tl_addressItemList {Q : Unit → Kind → Prop} (hq : ∀ a y, Q a y) : Tl addressItemList k Q := by
  refine tl_use (fun k => ?_) hq
  unfold addressItemList
  tl

macro_rules | `(tactic| tlr) => `(tactic| with_reducible apply tl_addressItemList (fun _ _ => ?_))

theorem tl_addressDef {Q : Unit → Kind → Prop} (hq : ∀ a y, Q a y) : Tl addressDef k Q := by
  refine tl_use (fun k => ?_) hq
  unfold addressDef
  tl

macro_rules | `(tactic| tlr) => `(tactic| with_reducible apply tl_addressDef (fun _ _ => ?_))

theorem tl_scriptDef {Q : Unit → Kind → Prop} (hq : ∀ a y, Q a y) : Tl scriptDef k Q := by
  refine tl_use (fun k => ?_) hq
  unfold scriptDef
  tl

macro_rules | `(tactic| tlr) => `(tactic| with_reducible apply tl_scriptDef (fun _ _ => ?_))

theorem tl_rootLoopBody {Q : Unit → Kind → Prop} (hq : ∀ a y, Q a y) : Tl rootLoopBody k Q := by
  refine tl_use (fun k => ?_) hq
  unfold rootLoopBody
  tl

macro_rules | `(tactic| tlr) => `(tactic| with_reducible apply tl_rootLoopBody (fun _ _ => ?_))

theorem tl_root {Q : Unit → Kind → Prop} (hq : ∀ a y, Q a y) : Tl root k Q := by
  refine tl_use (fun k => ?_) hq
  unfold root
  tl

macro_rules | `(tactic| tlr) => `(tactic| with_reducible apply tl_root (fun _ _ => ?_))

theorem tl_body (f : Fn) : Tl (body f) k fun r _ => Returned f r := by
  cases f with
  | skipUntil ts => exact tl_skipUntilBody fun _ _ => trivial
  | rootLoop => exact tl_rootLoopBody fun _ _ => trivial
  | addressItemLoop => exact tl_addressItemLoopBody fun _ _ => trivial
  | itemLoop => exact tl_itemLoopBody fun _ _ => trivial
  | recordFieldLoop => exact tl_recordFieldLoopBody fun _ _ => trivial
  | paramLoop => exact tl_paramLoopBody fun _ _ => trivial
  | type_ => exact tl_typeBody fun _ _ => trivial
  | pathLoop qual => exact tl_pathLoopBody fun _ _ => trivial
  | genericParamLoop => exact tl_genericParamLoopBody fun _ _ => trivial
  | boundsLoop => exact tl_boundsLoopBody fun _ _ => trivial
  | pattern => exact tl_patternBody fun _ _ => trivial
  | tuplePatLoop a b c => exact tl_tuplePatLoopBody fun _ _ => trivial
  | recordPatLoop => exact tl_recordPatLoopBody fun _ _ => trivial
  | blockLoop => exact tl_blockLoopBody fun _ _ => trivial
  | exprBlockLoop => exact tl_exprBlockLoopBody fun _ _ => trivial
  | stmt s => exact tl_stmtBody fun _ _ => trivial
  | exprBp bp => exact tl_exprBpBody
  | exprBpLoop bp lhs => exact tl_exprBpLoopBody fun _ _ => trivial
  | postfixLoop lhs => exact tl_postfixLoopBody fun _ _ => trivial
  | argLoop => exact tl_argLoopBody fun _ _ => trivial
  | recordExprLoop => exact tl_recordExprLoopBody fun _ _ => trivial
  | parenLoop => exact tl_parenLoopBody fun _ _ => trivial

end Verif.Parser
