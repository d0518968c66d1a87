import Verif.Parser.LostCheck

set_option autoImplicit false

/-! The check of `Verif.Parser.LostCheck` for the functions of the grammar. -/

namespace Verif.Parser

open Kind

variable {α : Type} {k x : Kind} {c : Nat}

/-! Rules for the operations. -/

theorem ck_pure {a : α} {Q : α → Kind → Nat → Prop} (h : Q a k c) : Ck (pure a) k c Q := h

theorem ck_current {Q : Kind → Kind → Nat → Prop} (h : Q k k c) : Ck current k c Q := h

theorem ck_currentText {Q : Text → Kind → Nat → Prop} (h : ∀ t, Q t k c) : Ck currentText k c Q := h

theorem ck_nth {n : Nat} {Q : Kind → Kind → Nat → Prop} (hc : 1 ≤ c) (h : ∀ y, Q y k (c - 1)) : Ck (nth n) k c Q :=
  ⟨hc, fun y _ => h y⟩

theorem ck_nth0 {Q : Kind → Kind → Nat → Prop} (hc : 1 ≤ c) (h : Q k k (c - 1)) : Ck (nth 0) k c Q :=
  ⟨hc, fun y hy => by rw [hy rfl]; exact h⟩

theorem ck_nthAt {n : Nat} {Q : Bool → Kind → Nat → Prop} (hc : 1 ≤ c) (h : ∀ b, Q b k (c - 1)) : Ck (nthAt n x) k c Q :=
  ck_bind (ck_nth hc fun _ => ck_pure (h _))

theorem ck_at {Q : Bool → Kind → Nat → Prop} (hc : 1 ≤ c) (ht : k = x → Q true k (c - 1))
    (hf : k ≠ x → Q false k (c - 1)) : Ck (at_ x) k c Q := by
  refine ck_bind (ck_nth0 hc (ck_pure ?_))
  cases hb : k == x with
  | true => exact ht (eq_of_beq hb)
  | false => exact hf (by simpa using hb)

theorem ck_doBump {kd : Kind} {Q : Unit → Kind → Nat → Prop} (hk : k ≠ EOF) (h : ∀ y, Q () y (c + GAIN)) :
    Ck (doBump kd) k c Q := ⟨hk, h⟩

theorem ck_eat {Q : Bool → Kind → Nat → Prop} (hx : x ≠ EOF) (hc : 1 ≤ c)
    (ht : k = x → ∀ y, Q true y (c - 1 + GAIN)) (hf : k ≠ x → Q false k (c - 1)) : Ck (eat x) k c Q := by
  refine ck_bind (ck_at hc (fun h => ?_) (fun h => ?_))
  · exact ck_bind (ck_doBump (h ▸ hx) fun y => ck_pure (ht h y))
  · exact ck_pure (hf h)

theorem ck_assert {b : Bool} {what : String} {Q : Unit → Kind → Nat → Prop} (hw : what ≠ "module")
    (h : b = true → Q () k c) : Ck (assert b what) k c Q := by
  cases b with
  | true => exact h rfl
  | false => show ¬ Allowed _; simpa [Allowed] using hw

theorem ck_bump {Q : Unit → Kind → Nat → Prop} (hx : x ≠ EOF) (hc : 1 ≤ c)
    (h : k = x → ∀ y, Q () y (c - 1 + GAIN)) : Ck (bump x) k c Q :=
  ck_bind (ck_eat hx hc (fun he y => ck_assert (by decide) fun _ => h he y)
    (fun _ => ck_assert (by decide) fun h => by cases h))

theorem ck_bumpAny {Q : Unit → Kind → Nat → Prop} (h0 : k = EOF → Q () k c)
    (h : k ≠ EOF → ∀ y, Q () y (c + GAIN)) : Ck bumpAny k c Q := by
  refine ck_bind (ck_current ?_)
  cases hb : k == EOF with
  | true => exact h0 (eq_of_beq hb)
  | false => exact ck_doBump (by simpa using hb) (h (by simpa using hb))

theorem ck_bumpRemap {Q : Unit → Kind → Nat → Prop} (hc : 1 ≤ c) (h0 : k = EOF → Q () k (c - 1))
    (h : k ≠ EOF → ∀ y, Q () y (c - 1 + GAIN)) : Ck (bumpRemap x) k c Q := by
  refine ck_bind (ck_nth0 hc ?_)
  cases hb : k == EOF with
  | true => exact h0 (eq_of_beq hb)
  | false => exact ck_doBump (by simpa using hb) (h (by simpa using hb))

theorem ck_atTs {ts : TokenSet} {Q : Bool → Kind → Nat → Prop} (ht : ts.contains k = true → Q true k c)
    (hf : ts.contains k = false → Q false k c) : Ck (atTs ts) k c Q := by
  refine ck_bind (ck_current (ck_pure ?_))
  cases hb : ts.contains k with
  | true => exact ht hb
  | false => exact hf hb

theorem ck_start {Q : Marker → Kind → Nat → Prop} (h : ∀ m, Q m k c) : Ck start k c Q := h
theorem ck_error {msg : String} {Q : Unit → Kind → Nat → Prop} (h : Q () k c) : Ck (error msg) k c Q := h
theorem ck_complete {m : Marker} {kd : Kind} {Q : Completed → Kind → Nat → Prop} (h : ∀ r, Q r k c) :
    Ck (m.complete kd) k c Q := h
theorem ck_abandon {m : Marker} {Q : Unit → Kind → Nat → Prop} (h : Q () k c) : Ck m.abandon k c Q := h
theorem ck_precede {q : Completed} {Q : Marker → Kind → Nat → Prop} (h : ∀ m, Q m k c) : Ck q.precede k c Q := h

theorem ck_call {f : Fn} {Q : f.Res → Kind → Nat → Prop} (hc : need f ≤ c)
    (h : ∀ r y c', Called f k c y c' → Q r y c') : Ck (call f) k c Q := ⟨hc, h⟩

theorem ck_ite {p : Prop} [Decidable p] {a b : Prog α} {Q : α → Kind → Nat → Prop}
    (ht : p → Ck a k c Q) (hf : ¬ p → Ck b k c Q) : Ck (if p then a else b) k c Q := by
  split
  · exact ht ‹_›
  · exact hf ‹_›

theorem ck_expect {Q : Bool → Kind → Nat → Prop} (hx : x ≠ EOF) (hc : 1 ≤ c)
    (ht : k = x → ∀ y, Q true y (c - 1 + GAIN)) (hf : k ≠ x → Q false k (c - 1)) : Ck (expect x) k c Q := by
  refine ck_bind (ck_eat hx hc (fun h y => ?_) (fun h => ?_))
  · exact ck_pure (ht h y)
  · exact ck_bind (ck_error (ck_pure (hf h)))

theorem ck_neither {a b : Kind} {Q : Bool → Kind → Nat → Prop} (hc : 2 ≤ c)
    (ht : k ≠ a → k ≠ b → Q true k (c - 1 - 1)) (hf : ∀ c', c ≤ c' + 2 → Q false k c') : Ck (neither a b) k c Q := by
  refine ck_bind (ck_at (by omega) (fun _ => ck_pure (hf _ (by omega))) (fun h1 => ?_))
  exact ck_bind (ck_at (by omega) (fun _ => ck_pure (hf _ (by omega))) (fun h2 => ck_pure (ht h1 h2)))

theorem ck_errRecover {msg : String} {ts : TokenSet} {Q : Unit → Kind → Nat → Prop}
    (h0 : k = L_BRACE ∨ k = R_BRACE ∨ k = EOF ∨ ts.contains k = true → Q () k c)
    (h : k ≠ L_BRACE → k ≠ R_BRACE → k ≠ EOF → ts.contains k = false → ∀ y, Q () y (c + GAIN)) :
    Ck (errRecover msg ts) k c Q := by
  refine ck_bind (ck_current (ck_ite (fun hb => ?_) (fun hb => ?_)))
  · refine ck_bind (ck_error (ck_pure (h0 ?_)))
    simp only [Bool.or_eq_true, beq_iff_eq] at hb
    rcases hb with hb | hb <;> simp [hb]
  · simp only [Bool.or_eq_true, beq_iff_eq, not_or] at hb
    refine ck_bind (ck_atTs (fun ht => ?_) (fun hf => ?_))
    · exact ck_bind (ck_error (ck_pure (h0 (by simp [ht]))))
    · refine ck_bind (ck_start fun m => ck_bind (ck_error (ck_bind (ck_bumpAny (fun he => ?_) (fun he y => ?_)))))
      · exact ck_bind (ck_complete fun r => ck_pure (h0 (by simp [he])))
      · exact ck_bind (ck_complete fun r => ck_pure (h hb.1 hb.2 he hf y))

theorem contains_empty : TokenSet.EMPTY.contains k = false := by
  have : ∀ k : Kind, TokenSet.EMPTY.contains k = false := by intro k; cases k <;> rfl
  exact this k

theorem ck_errAndBump {msg : String} {Q : Unit → Kind → Nat → Prop}
    (h0 : k = L_BRACE ∨ k = R_BRACE ∨ k = EOF → Q () k c)
    (h : k ≠ L_BRACE → k ≠ R_BRACE → k ≠ EOF → ∀ y, Q () y (c + GAIN)) : Ck (errAndBump msg) k c Q :=
  ck_errRecover (fun hb => h0 (by simpa [contains_empty] using hb)) (fun h1 h2 h3 _ => h h1 h2 h3)

theorem ck_errorAndSkipUntil {msg : String} {ts : TokenSet} {Q : Completed → Kind → Nat → Prop}
    (h0 : k = EOF ∨ ts.contains k = true → ∀ r c', c ≤ c' → Q r k c')
    (h : k ≠ EOF → ts.contains k = false → ∀ r y c', c + GAIN ≤ c' → Q r y c') :
    Ck (errorAndSkipUntil msg ts) k c Q := by
  refine ck_bind (ck_start fun m => ck_bind (ck_error (ck_bind (ck_call (Nat.zero_le _) fun r y c' hp => ?_))))
  refine ck_complete fun r => ?_
  have hset : (ts.union (TokenSet.new [EOF])).contains k = true ↔ k = EOF ∨ ts.contains k = true := by
    rw [TokenSet.contains_union, TokenSet.contains_new]
    simp [or_comm]
  obtain ⟨hst, hp⟩ := hp
  rcases hp.cases with ⟨h1, h2⟩ | ⟨h1, h2⟩
  · simp only [eats] at h1
    refine h ?_ ?_ r y c' (by simpa [eatCost] using h2)
    · intro he
      rw [hset.2 (.inl he)] at h1
      cases h1
    · cases hb : ts.contains k with
      | false => rfl
      | true => rw [hset.2 (.inr hb)] at h1; cases h1
  · simp only [eats, Bool.not_eq_false] at h1
    rw [hst h1]
    exact h0 (hset.1 h1) r c' (by simpa [idleCost] using h2)

/-! Automation. -/

/-- Simplify a condition and use it. -/
syntax "ckc" ident : tactic
macro_rules | `(tactic| ckc $h:ident) => `(tactic| (
  try simp only [contains_empty, beq_iff_eq, bne_iff_ne, Bool.or_eq_true, Bool.and_eq_true, not_or, eats, Bool.not_eq_true, Bool.not_eq_true',
    Bool.not_eq_false, reduceCtorEq, or_false, false_or, not_false_eq_true, ne_eq, not_true_eq_false, true_and, and_true,
    beq_eq_false_iff_ne, Bool.not_true, Bool.not_false] at $h:ident
  first
  | (subst $h:ident)
  | (cases $h:ident; done)
  | (rcases $h:ident with heq | heq <;> subst heq)
  | contradiction
  | skip))

/-- Close a goal about credit. -/
macro "ckf" : tactic => `(tactic| (
  first
  | omega
  | (exfalso; simp_all; done)
  | (exfalso; simp_all <;> omega)))

syntax "ckr" : tactic

/-- Use a lemma about a function. -/
syntax "cku" term : tactic
set_option hygiene false in
macro_rules | `(tactic| cku $t:term) => `(tactic| (
  (with_reducible apply ck_mono (($t) ?_) ?_); omega
  intro r y c' hp
  rcases hp.cases with ⟨hcond, hpaid⟩ | ⟨hcond, hpaid⟩
  all_goals clear hp
  all_goals ckc hcond))

theorem ck_absurd {p : Prog α} {Q : α → Kind → Nat → Prop} (h : False) : Ck p k c Q := h.elim

macro_rules | `(tactic| ckr) => `(tactic| ((with_reducible apply ck_absurd); simp_all; done))
macro_rules | `(tactic| ckr) => `(tactic| split)
set_option hygiene false in
macro_rules | `(tactic| ckr) => `(tactic|
  ((with_reducible apply ck_ite (fun hcond => ?_) (fun hcond => ?_)) <;> ckc hcond))
macro_rules | `(tactic| ckr) => `(tactic| with_reducible apply ck_bind ?_)
macro_rules | `(tactic| ckr) => `(tactic| with_reducible apply ck_pure ?_)
macro_rules | `(tactic| ckr) => `(tactic| with_reducible apply ck_current ?_)
macro_rules | `(tactic| ckr) => `(tactic| with_reducible apply ck_currentText (fun _ => ?_))
macro_rules | `(tactic| ckr) => `(tactic| ((with_reducible apply ck_nth ?_ (fun _ => ?_)); omega))
macro_rules | `(tactic| ckr) => `(tactic| ((with_reducible apply ck_nthAt ?_ (fun _ => ?_)); omega))
set_option hygiene false in
macro_rules | `(tactic| ckr) => `(tactic|
  ((with_reducible apply ck_at ?_ (fun hcond => ?_) (fun hcond => ?_)); omega; all_goals ckc hcond))
set_option hygiene false in
macro_rules | `(tactic| ckr) => `(tactic|
  ((with_reducible apply ck_eat ?_ ?_ (fun hcond _ => ?_) (fun hcond => ?_)); decide; omega; all_goals ckc hcond))
set_option hygiene false in
macro_rules | `(tactic| ckr) => `(tactic|
  ((with_reducible apply ck_expect ?_ ?_ (fun hcond _ => ?_) (fun hcond => ?_)); decide; omega; all_goals ckc hcond))
set_option hygiene false in
macro_rules | `(tactic| ckr) => `(tactic|
  ((with_reducible apply ck_assert ?_ (fun hcond => ?_)); decide; ckc hcond))
set_option hygiene false in
macro_rules | `(tactic| ckr) => `(tactic|
  ((with_reducible apply ck_bump ?_ ?_ (fun hcond _ => ?_)); decide; omega; ckc hcond))
set_option hygiene false in
macro_rules | `(tactic| ckr) => `(tactic|
  ((with_reducible apply ck_bumpAny (fun hcond => ?_) (fun hcond _ => ?_)) <;> ckc hcond))
set_option hygiene false in
macro_rules | `(tactic| ckr) => `(tactic|
  ((with_reducible apply ck_bumpRemap ?_ (fun hcond => ?_) (fun hcond _ => ?_)); omega; all_goals ckc hcond))
set_option hygiene false in
macro_rules | `(tactic| ckr) => `(tactic|
  ((with_reducible apply ck_atTs (fun hcond => ?_) (fun hcond => ?_)) <;> ckc hcond))
macro_rules | `(tactic| ckr) => `(tactic| (with_reducible apply ck_start (fun _ => ?_)))
macro_rules | `(tactic| ckr) => `(tactic| (with_reducible apply ck_error ?_))
macro_rules | `(tactic| ckr) => `(tactic| (with_reducible apply ck_complete (fun _ => ?_)))
macro_rules | `(tactic| ckr) => `(tactic| (with_reducible apply ck_abandon ?_))
macro_rules | `(tactic| ckr) => `(tactic| (with_reducible apply ck_precede (fun _ => ?_)))
set_option hygiene false in
macro_rules | `(tactic| ckr) => `(tactic| (
  (with_reducible apply ck_call ?_ ?_); (simp only [need]; omega)
  intro r y c' hp
  replace hp := hp.2
  rcases hp.cases with ⟨hcond, hpaid⟩ | ⟨hcond, hpaid⟩
  all_goals clear hp
  all_goals simp only [eatCost, idleCost] at hpaid
  all_goals ckc hcond))
set_option hygiene false in
macro_rules | `(tactic| ckr) => `(tactic|
  ((with_reducible apply ck_neither ?_ (fun hn1 hn2 => ?_) (fun _ _ => ?_)); omega))
set_option hygiene false in
macro_rules | `(tactic| ckr) => `(tactic|
  ((with_reducible apply ck_errRecover (fun hcond => ?_) (fun hb1 hb2 hb3 hcond _ => ?_)) <;> ckc hcond))
set_option hygiene false in
macro_rules | `(tactic| ckr) => `(tactic|
  ((with_reducible apply ck_errAndBump (fun hcond => ?_) (fun hb1 hb2 hcond _ => ?_)) <;> ckc hcond))
set_option hygiene false in
macro_rules | `(tactic| ckr) => `(tactic|
  ((with_reducible apply ck_errorAndSkipUntil (fun hcond _ _ _ => ?_) (fun hb1 hcond _ _ _ _ => ?_)) <;> ckc hcond))

/-- All rules. -/
macro "cka" : tactic => `(tactic| repeat' (first
  | with_reducible apply ck_bind
  | with_reducible apply ck_pure
  | ckr))

/-- Close what is left. -/
macro "ckend" : tactic => `(tactic| (
  all_goals skip
  all_goals refine ⟨fun _ => ?_, fun _ => ?_⟩
  all_goals (try simp only [eatCost, idleCost, eats] at *)
  all_goals ckf))

/-! grammar.rs: names -/

theorem ck_nameR {ts : TokenSet} (hc : 2 ≤ c) : Ck (nameR ts) k c fun _ _ c' => Paid (k = IDENT) c c' 2 1 := by
  unfold nameR
  cka
  ckend

macro_rules | `(tactic| ckr) => `(tactic| cku ck_nameR)

theorem ck_name (hc : 2 ≤ c) :
    Ck name k c fun _ _ c' => Paid (k ≠ L_BRACE ∧ k ≠ R_BRACE ∧ k ≠ EOF) c c' 2 1 := by
  unfold name nameR
  cka
  ckend

macro_rules | `(tactic| ckr) => `(tactic| cku ck_name)

theorem ck_nameRef (hc : 2 ≤ c) :
    Ck nameRef k c fun _ _ c' => Paid (k ≠ L_BRACE ∧ k ≠ R_BRACE ∧ k ≠ EOF) c c' 2 1 := by
  unfold nameRef
  cka
  ckend

macro_rules | `(tactic| ckr) => `(tactic| cku ck_nameRef)

/-! paths.rs -/

theorem ck_isPathStart {Q : Bool → Kind → Nat → Prop} (ht : k = IDENT → Q true k c) (hf : k ≠ IDENT → Q false k c) :
    Ck isPathStart k c Q := by
  refine ck_bind (ck_current (ck_pure ?_))
  cases hb : k == IDENT with
  | true => exact ht (eq_of_beq hb)
  | false => exact hf (by simpa using hb)

set_option hygiene false in
macro_rules | `(tactic| ckr) => `(tactic|
  ((with_reducible refine ck_isPathStart (fun hcond => ?_) (fun hcond => ?_)) <;> ckc hcond))

theorem ck_pathSegment {b : Bool} (hc : 3 ≤ c) :
    Ck (pathSegment b) k c fun _ _ c' => Paid (k = IDENT) c c' 3 1 := by
  unfold pathSegment
  cka
  ckend

macro_rules | `(tactic| ckr) => `(tactic| cku ck_pathSegment)

theorem ck_path (hc : 3 ≤ c) :
    Ck path IDENT c fun _ _ c' => Paid (True) c c' 5 0 := by
  unfold path
  cka
  ckend

macro_rules | `(tactic| ckr) => `(tactic| cku ck_path)

/-! types.rs -/

theorem ck_refType (hc : 2 ≤ c) :
    Ck refType AMP c fun _ _ c' => Paid (True) c c' 3 0 := by
  unfold refType
  cka
  ckend

macro_rules | `(tactic| ckr) => `(tactic| cku ck_refType)

theorem ck_pathType (hc : 3 ≤ c) :
    Ck pathType IDENT c fun _ _ c' => Paid (True) c c' 5 0 := by
  unfold pathType
  cka
  ckend

macro_rules | `(tactic| ckr) => `(tactic| cku ck_pathType)

theorem ck_ascription (hc : 2 ≤ c) :
    Ck ascription k c fun _ _ c' => Paid (k = COLON) c c' 2 0 := by
  unfold ascription
  cka
  ckend

macro_rules | `(tactic| ckr) => `(tactic| cku ck_ascription)

/-! generic_params.rs -/

theorem ck_typeBound (hc : 2 ≤ c) :
    Ck typeBound k c fun _ _ c' => Paid (k = IDENT) c c' 2 0 := by
  unfold typeBound
  cka
  ckend

theorem ck_bounds (hc : 2 ≤ c) :
    Ck bounds k c fun _ _ c' => Paid (True) c c' 2 0 := by
  unfold bounds
  cka
  ckend

macro_rules | `(tactic| ckr) => `(tactic| cku ck_bounds)

theorem ck_typeParam {m : Marker} (hc : 3 ≤ c) :
    Ck (typeParam m) k c fun _ _ c' => Paid (True) c c' 4 0 := by
  unfold typeParam
  cka
  ckend

macro_rules | `(tactic| ckr) => `(tactic| cku ck_typeParam)

theorem ck_genericParam (hc : 3 ≤ c) :
    Ck genericParam k c fun _ _ c' => Paid (k ≠ L_BRACE ∧ k ≠ R_BRACE ∧ k ≠ EOF) c c' 4 0 := by
  unfold genericParam
  cka
  ckend

macro_rules | `(tactic| ckr) => `(tactic| cku ck_genericParam)

theorem ck_genericParamList (hc : 2 ≤ c) :
    Ck genericParamList k c fun _ _ c' => Paid (True) c c' 7 0 := by
  unfold genericParamList
  cka
  ckend

macro_rules | `(tactic| ckr) => `(tactic| cku ck_genericParamList)

theorem ck_optGenericParamList (hc : 3 ≤ c) :
    Ck optGenericParamList k c fun _ _ c' => Paid (False) c c' 0 1 := by
  unfold optGenericParamList
  cka
  ckend

macro_rules | `(tactic| ckr) => `(tactic| cku ck_optGenericParamList)

/-! params.rs -/

theorem ck_param {m : Marker} (hc : 4 ≤ c) :
    Ck (param m) k c fun _ _ c' => Paid (k ≠ L_BRACE ∧ k ≠ R_BRACE ∧ k ≠ EOF) c c' 3 2 := by
  unfold param
  cka
  ckend

macro_rules | `(tactic| ckr) => `(tactic| cku ck_param)

theorem ck_paramList (hc : 1 ≤ c) :
    Ck paramList k c fun _ _ c' => Paid (True) c c' 4 0 := by
  unfold paramList
  cka
  ckend

macro_rules | `(tactic| ckr) => `(tactic| cku ck_paramList)

/-! patterns.rs -/

theorem ck_identPat (hc : 3 ≤ c) :
    Ck identPat k c fun _ _ c' => Paid (k ≠ L_BRACE ∧ k ≠ R_BRACE ∧ k ≠ EOF) c c' 3 2 := by
  unfold identPat
  cka
  ckend

macro_rules | `(tactic| ckr) => `(tactic| cku ck_identPat)

theorem ck_restPat (hc : 2 ≤ c) :
    Ck restPat k c fun _ _ c' => Paid (True) c c' 2 0 := by
  unfold restPat
  cka
  ckend

macro_rules | `(tactic| ckr) => `(tactic| cku ck_restPat)

theorem ck_wildcardPat (hc : 2 ≤ c) :
    Ck wildcardPat k c fun _ _ c' => Paid (True) c c' 2 0 := by
  unfold wildcardPat
  cka
  ckend

macro_rules | `(tactic| ckr) => `(tactic| cku ck_wildcardPat)

theorem ck_tuplePat (hc : 2 ≤ c) :
    Ck tuplePat k c fun _ _ c' => Paid (True) c c' 5 0 := by
  unfold tuplePat
  cka
  ckend

macro_rules | `(tactic| ckr) => `(tactic| cku ck_tuplePat)

theorem ck_errorBlock {msg : String} (hc : 2 ≤ c) :
    Ck (errorBlock msg) k c fun _ _ c' => Paid (True) c c' 5 0 := by
  unfold errorBlock
  cka
  ckend

macro_rules | `(tactic| ckr) => `(tactic| cku ck_errorBlock)

theorem ck_recordPatField (hc : 4 ≤ c) :
    Ck recordPatField k c fun _ _ c' => Paid (k ≠ L_BRACE ∧ k ≠ R_BRACE ∧ k ≠ EOF) c c' 4 3 := by
  unfold recordPatField
  cka
  ckend

macro_rules | `(tactic| ckr) => `(tactic| cku ck_recordPatField)

theorem ck_recordPatEntry (hc : 5 ≤ c) :
    Ck recordPatEntry k c fun _ _ c' => Paid (k ≠ R_BRACE ∧ k ≠ EOF) c c' 5 4 := by
  unfold recordPatEntry
  cka
  ckend

macro_rules | `(tactic| ckr) => `(tactic| cku ck_recordPatEntry)

theorem ck_recordPatFieldList (hc : 2 ≤ c) :
    Ck recordPatFieldList k c fun _ _ c' => Paid (True) c c' 5 0 := by
  unfold recordPatFieldList
  cka
  ckend

macro_rules | `(tactic| ckr) => `(tactic| cku ck_recordPatFieldList)

theorem ck_pathPat (hc : 3 ≤ c) :
    Ck pathPat IDENT c fun _ _ c' => Paid (True) c c' 5 0 := by
  unfold pathPat
  cka
  ckend

macro_rules | `(tactic| ckr) => `(tactic| cku ck_pathPat)

end Verif.Parser
