import Verif.Parser.Check

set_option autoImplicit false

/-! The check of `Verif.Parser.Check` for the functions of the grammar. -/

namespace Verif.Parser

open Kind

variable {α : Type} {k : Kind} {nx : Option Kind} {op : List (Marker × Bool)} {la : Option Completed}
  {cr : Nat}

/-! Primitive and derived operations. -/

theorem ok_pure {a : α} {c : Ctx} {Q : α → Ctx → Prop} (h : Q a c) : Ok (pure a) c Q := h

theorem ok_current {Q : Kind → Ctx → Prop} (h : Q k ⟨k, nx, op, la, cr⟩) :
    Ok current ⟨k, nx, op, la, cr⟩ Q := h

theorem ok_currentText {Q : Text → Ctx → Prop} (hc : 1 ≤ cr)
    (h : ∀ t, Q t ⟨k, nx, op, la, cr - 1⟩) : Ok currentText ⟨k, nx, op, la, cr⟩ Q := ⟨hc, h⟩

theorem ok_nth1 {Q : Kind → Ctx → Prop} (hc : 1 ≤ cr)
    (h : ∀ x, (k = EOF → x = EOF) → Q x ⟨k, some x, op, la, cr - 1 + 200⟩) :
    Ok (nth 1) ⟨k, nx, op, la, cr⟩ Q :=
  ⟨hc, by omega, fun x _ h1 => h x (h1 rfl).1⟩

theorem ok_nth2 {Q : Kind → Ctx → Prop} (hc : 1 ≤ cr)
    (h : ∀ x, Q x ⟨k, nx, op, la, cr - 1 + 200⟩) : Ok (nth 2) ⟨k, nx, op, la, cr⟩ Q :=
  ⟨hc, by omega, fun x _ _ => h x⟩

theorem ok_nth0 {Q : Kind → Ctx → Prop} (hc : 1 ≤ cr)
    (h : Q k ⟨k, nx, op, la, cr - 1 + 200⟩) : Ok (nth 0) ⟨k, nx, op, la, cr⟩ Q :=
  ⟨hc, by omega, fun x h0 _ => by cases h0 rfl; exact h⟩

theorem ok_nthAt1 {x : Kind} {Q : Bool → Ctx → Prop} (hc : 1 ≤ cr)
    (ht : (k = EOF → x = EOF) → Q true ⟨k, some x, op, la, cr - 1 + 200⟩)
    (hf : ∀ y, Q false ⟨k, some y, op, la, cr - 1 + 200⟩) : Ok (nthAt 1 x) ⟨k, nx, op, la, cr⟩ Q := by
  refine ok_bind (ok_nth1 hc fun y hy => ok_pure ?_)
  cases hb : y == x with
  | true => cases eq_of_beq hb; exact ht hy
  | false => exact hf y

theorem ok_at {x : Kind} {Q : Bool → Ctx → Prop} (hc : 1 ≤ cr)
    (ht : k = x → Q true ⟨k, nx, op, la, cr - 1 + 200⟩)
    (hf : k ≠ x → Q false ⟨k, nx, op, la, cr - 1 + 200⟩) : Ok (at_ x) ⟨k, nx, op, la, cr⟩ Q := by
  refine ok_bind (ok_nth0 hc (ok_pure ?_))
  cases hb : k == x with
  | true => exact ht (eq_of_beq hb)
  | false => exact hf (by simpa using hb)

theorem ok_doBump {Q : Unit → Ctx → Prop} (hc : 1 ≤ cr) (hk : k ≠ EOF)
    (h : ∀ x : Kind, x.isTrivia = false → (∀ y, nx = some y → y.isTrivia = false → x = y) →
      Q () ⟨x, none, op, none, cr - 1 + 200⟩) : Ok (doBump k) ⟨k, nx, op, la, cr⟩ Q :=
  ⟨hc, hk, .inl rfl, h⟩

theorem ok_eat {x : Kind} (hx : x ≠ EOF) {Q : Bool → Ctx → Prop} (hc : 1 ≤ cr)
    (ht : k = x → ∀ y : Kind, y.isTrivia = false → (∀ z, nx = some z → z.isTrivia = false → y = z) →
      Q true ⟨y, none, op, none, cr + 398⟩)
    (hf : k ≠ x → Q false ⟨k, nx, op, la, cr + 199⟩) : Ok (eat x) ⟨k, nx, op, la, cr⟩ Q := by
  refine ok_bind (ok_at hc (fun h => ?_) (fun h => ?_))
  · subst h
    have hs : cr + 398 = cr - 1 + 200 - 1 + 200 := by omega
    rw [hs] at ht
    exact ok_bind (ok_doBump (by omega) hx fun y h1 h2 => ok_pure (ht rfl y h1 h2))
  · have hs : cr + 199 = cr - 1 + 200 := by omega
    rw [hs] at hf
    exact ok_pure (hf h)

theorem ok_assert {b : Bool} {what : String} {c : Ctx} {Q : Unit → Ctx → Prop} (hb : b = true)
    (h : Q () c) : Ok (assert b what) c Q := by
  subst hb; exact h

theorem ok_bump {Q : Unit → Ctx → Prop} (hx : k ≠ EOF) (hc : 1 ≤ cr)
    (h : ∀ y : Kind, y.isTrivia = false → (∀ z, nx = some z → z.isTrivia = false → y = z) →
      Q () ⟨y, none, op, none, cr + 398⟩) : Ok (bump k) ⟨k, nx, op, la, cr⟩ Q :=
  ok_bind (ok_eat hx hc (fun _ y h1 h2 => ok_assert rfl (h y h1 h2)) (fun h => absurd rfl h))

/-- The function closes what it opens and costs at most `n`. -/
def Keep {α : Type} (op : List (Marker × Bool)) (cr n : Nat) (Q : α → Ctx → Prop) : Prop :=
  ∀ r k nx la cr', Kind.isTrivia k = false → cr ≤ cr' + n → Q r ⟨k, nx, op, la, cr'⟩

theorem ok_bumpAny {Q : Unit → Ctx → Prop} (hc : 1 ≤ cr)
    (h0 : k = EOF → Q () ⟨k, nx, op, la, cr⟩)
    (h : k ≠ EOF → ∀ y : Kind, y.isTrivia = false →
      (∀ z, nx = some z → z.isTrivia = false → y = z) → Q () ⟨y, none, op, none, cr + 199⟩) :
    Ok bumpAny ⟨k, nx, op, la, cr⟩ Q := by
  refine ok_bind (ok_current ?_)
  cases hb : k == EOF with
  | true => exact h0 (eq_of_beq hb)
  | false =>
    have hne : k ≠ EOF := by simpa using hb
    have hs : cr + 199 = cr - 1 + 200 := by omega
    rw [hs] at h
    exact ok_doBump hc hne (h hne)

/-- `bumpAny`, when only the credit matters. -/
theorem ok_bumpAny' {Q : Unit → Ctx → Prop} (hk : k.isTrivia = false) (hc : 1 ≤ cr)
    (h : Keep op cr 0 Q) : Ok bumpAny ⟨k, nx, op, la, cr⟩ Q :=
  ok_bumpAny hc (fun _ => h _ _ _ _ _ hk (by omega)) (fun _ y hy _ => h _ _ _ _ _ hy (by omega))

theorem ok_atTs {ts : TokenSet} {Q : Bool → Ctx → Prop}
    (ht : ts.contains k = true → Q true ⟨k, nx, op, la, cr⟩)
    (hf : ts.contains k = false → Q false ⟨k, nx, op, la, cr⟩) :
    Ok (atTs ts) ⟨k, nx, op, la, cr⟩ Q := by
  refine ok_bind (ok_current (ok_pure ?_))
  cases hb : ts.contains k with
  | true => exact ht hb
  | false => exact hf hb

theorem ok_start {Q : Marker → Ctx → Prop} (hk : k.isTrivia = false) (hc : 1 ≤ cr)
    (h : ∀ m, Q m ⟨k, nx, (m, false) :: op, none, cr - 1⟩) : Ok start ⟨k, nx, op, la, cr⟩ Q :=
  ⟨hc, hk, h⟩

theorem ok_error {msg : String} {Q : Unit → Ctx → Prop} (hk : k.isTrivia = false) (hc : 1 ≤ cr)
    (h : Q () ⟨k, nx, op, none, cr - 1⟩) : Ok (error msg) ⟨k, nx, op, la, cr⟩ Q :=
  ⟨hc, hk, h⟩

theorem ok_complete {m : Marker} {b : Bool} {kind : Kind} {Q : Completed → Ctx → Prop}
    (hk : k.isTrivia = false) (hkd : isNodeKind kind = true) (hc : 1 ≤ cr)
    (h : ∀ r, Q r ⟨k, nx, op, some r, cr - 1⟩) :
    Ok (m.complete kind) ⟨k, nx, (m, b) :: op, la, cr⟩ Q :=
  ⟨hc, hk, hkd, b, op, rfl, h⟩

theorem ok_abandon {m : Marker} {Q : Unit → Ctx → Prop} (hk : k.isTrivia = false) (hc : 1 ≤ cr)
    (h : Q () ⟨k, nx, op, none, cr - 1⟩) :
    Ok m.abandon ⟨k, nx, (m, false) :: op, la, cr⟩ Q :=
  ⟨hc, hk, op, rfl, h⟩

theorem ok_precede {r : Completed} {Q : Marker → Ctx → Prop} (hk : k.isTrivia = false) (hc : 1 ≤ cr)
    (h : ∀ m, Q m ⟨k, nx, (m, true) :: op, none, cr - 1⟩) :
    Ok r.precede ⟨k, nx, op, some r, cr⟩ Q :=
  ⟨hc, hk, rfl, h⟩

theorem ok_call {f : Fn} {Q : f.Res → Ctx → Prop} (hc : cost f ≤ cr)
    (hp : Pre f ⟨k, nx, op, la, cr⟩)
    (h : ∀ r k' nx' la' cr', Post f ⟨k, nx, op, la, cr⟩ r ⟨k', nx', op, la', cr'⟩ →
      cr ≤ cr' + cost f → Q r ⟨k', nx', op, la', cr'⟩) :
    Ok (call f) ⟨k, nx, op, la, cr⟩ Q := by
  refine ⟨hc, hp, ?_⟩
  rintro r ⟨k', nx', op', la', cr'⟩ h1 h2 h3
  simp only at h2
  subst h2
  exact h r k' nx' la' cr' h1 h3

/-- A call, when only the credit matters. -/
theorem ok_call' {f : Fn} {Q : f.Res → Ctx → Prop} (hc : cost f ≤ cr)
    (hp : Pre f ⟨k, nx, op, la, cr⟩) (h : Keep op cr (cost f) Q) :
    Ok (call f) ⟨k, nx, op, la, cr⟩ Q :=
  ok_call hc hp fun r _ _ _ _ h1 h2 => h _ _ _ _ _ h1.1 h2

theorem ok_ite {p : Prop} [Decidable p] {a b : Prog α} {c : Ctx} {Q : α → Ctx → Prop}
    (ht : p → Ok a c Q) (hf : ¬ p → Ok b c Q) : Ok (if p then a else b) c Q := by
  split
  · exact ht ‹_›
  · exact hf ‹_›

theorem ok_expect {x : Kind} (hx : x ≠ EOF) (hk : k.isTrivia = false) {Q : Bool → Ctx → Prop}
    (hc : 1 ≤ cr) (h : Keep op (cr + 198) 0 Q) : Ok (expect x) ⟨k, nx, op, la, cr⟩ Q := by
  refine ok_bind (ok_eat hx hc (fun _ y hy _ => ?_) (fun _ => ?_))
  · exact ok_pure (h _ _ _ _ _ hy (by omega))
  · exact ok_bind (ok_error hk (by omega) (ok_pure (h _ _ _ _ _ hk (by omega))))

theorem ok_neither {a b : Kind} {Q : Bool → Ctx → Prop} (hc : 1 ≤ cr)
    (ht : k ≠ a → k ≠ b → ∀ cr', cr + 398 = cr' → Q true ⟨k, nx, op, la, cr'⟩)
    (hf : ∀ cr', cr + 199 ≤ cr' → Q false ⟨k, nx, op, la, cr'⟩) :
    Ok (neither a b) ⟨k, nx, op, la, cr⟩ Q := by
  refine ok_bind (ok_at hc (fun _ => ok_pure (hf _ (by omega))) (fun h1 => ?_))
  exact ok_bind (ok_at (by omega) (fun _ => ok_pure (hf _ (by omega)))
    (fun h2 => ok_pure (ht h1 h2 _ (by omega))))

/-! Error recovery. -/

theorem ok_errRecover {msg : String} {ts : TokenSet} {Q : Unit → Ctx → Prop} (hk : k.isTrivia = false)
    (hc : 4 ≤ cr) (h : Keep op cr 4 Q) : Ok (errRecover msg ts) ⟨k, nx, op, la, cr⟩ Q := by
  refine ok_bind (ok_current ?_)
  refine ok_ite (fun _ => ?_) (fun _ => ?_)
  · exact ok_bind (ok_error hk (by omega) (ok_pure (h _ _ _ _ _ hk (by omega))))
  · refine ok_bind (ok_atTs (fun _ => ?_) (fun _ => ?_))
    · exact ok_bind (ok_error hk (by omega) (ok_pure (h _ _ _ _ _ hk (by omega))))
    · refine ok_bind (ok_start hk (by omega) fun m => ?_)
      refine ok_bind (ok_error hk (by omega) ?_)
      refine ok_bind (ok_bumpAny' hk (by omega) ?_)
      intro _ k' nx' la' cr' hk' hcr'
      exact ok_bind (ok_complete hk' (by decide) (by omega) fun r =>
        ok_pure (h _ _ _ _ _ hk' (by omega)))


/-! Automation: one rule after the other. -/

theorem ok_if_t {a b : Prog α} {c : Ctx} {Q : α → Ctx → Prop} [i : Decidable (true = true)]
    (h : Ok a c Q) : Ok (@ite _ (true = true) i a b) c Q := by rw [if_pos rfl]; exact h

theorem ok_if_f {a b : Prog α} {c : Ctx} {Q : α → Ctx → Prop} [i : Decidable (false = true)]
    (h : Ok b c Q) : Ok (@ite _ (false = true) i a b) c Q := by rw [if_neg Bool.noConfusion]; exact h

theorem ok_if_nt {a b : Prog α} {c : Ctx} {Q : α → Ctx → Prop} [i : Decidable ((!true) = true)]
    (h : Ok b c Q) : Ok (@ite _ ((!true) = true) i a b) c Q := by rw [if_neg (by simp)]; exact h

theorem ok_if_nf {a b : Prog α} {c : Ctx} {Q : α → Ctx → Prop} [i : Decidable ((!false) = true)]
    (h : Ok a c Q) : Ok (@ite _ ((!false) = true) i a b) c Q := by rw [if_pos (by rfl)]; exact h

/-- The current token is not trivia. -/
macro "nt" : tactic => `(tactic| first | assumption | rfl | decide)

/-- One rule. -/
syntax "okr" : tactic

set_option hygiene false in
macro "okhyp" : tactic => `(tactic| (
  try simp only [beq_iff_eq, Bool.or_eq_true, Bool.and_eq_true, not_or] at hcond
  first
  | (subst hcond)
  | (cases hcond; done)
  | exact absurd rfl hcond
  | (rcases hcond with rfl | rfl | rfl)
  | (rcases hcond with rfl | rfl)
  | skip))

set_option hygiene false in
macro_rules | `(tactic| okr) => `(tactic|
  (with_reducible refine ok_ite (fun hcond => ?_) (fun hcond => ?_)) <;> okhyp)

set_option hygiene false in
macro_rules | `(tactic| okr) => `(tactic| (refine h _ _ _ _ _ (by nt) ?_; (try simp only [cost]); omega))

macro_rules | `(tactic| okr) => `(tactic| with_reducible refine ok_bind ?_)
macro_rules | `(tactic| okr) => `(tactic| with_reducible refine ok_pure ?_)
macro_rules | `(tactic| okr) => `(tactic| with_reducible refine ok_if_t ?_)
macro_rules | `(tactic| okr) => `(tactic| with_reducible refine ok_if_f ?_)
macro_rules | `(tactic| okr) => `(tactic| with_reducible refine ok_if_nt ?_)
macro_rules | `(tactic| okr) => `(tactic| with_reducible refine ok_if_nf ?_)
macro_rules | `(tactic| okr) => `(tactic| with_reducible refine ok_current ?_)
macro_rules | `(tactic| okr) => `(tactic|
  ((with_reducible refine ok_currentText ?_ ?_); omega; intro _))
macro_rules | `(tactic| okr) => `(tactic| ((with_reducible refine ok_nth1 ?_ ?_); omega; intro _ _))
macro_rules | `(tactic| okr) => `(tactic| ((with_reducible refine ok_nth2 ?_ ?_); omega; intro _))
macro_rules | `(tactic| okr) => `(tactic|
  ((with_reducible refine ok_nthAt1 ?_ ?_ ?_); omega; all_goals intro _))
set_option hygiene false in
macro_rules | `(tactic| okr) => `(tactic|
  ((with_reducible refine ok_at ?_ (fun hcond => ?_) (fun hcond => ?_)); omega; all_goals
    first | (subst hcond) | (cases hcond; done) | exact absurd rfl hcond | (cases hcond) | skip))
set_option hygiene false in
macro_rules | `(tactic| okr) => `(tactic|
  ((with_reducible refine ok_eat ?_ ?_ (fun hcond => ?_) (fun hcond => ?_)); decide; omega; all_goals
    first
    | (subst hcond; intro _ _ _)
    | (cases hcond; done)
    | exact absurd rfl hcond
    | (cases hcond; intro _ _ _)
    | skip))
macro_rules | `(tactic| okr) => `(tactic|
  ((with_reducible refine ok_assert ?_ ?_); (first | rfl | assumption)))
macro_rules | `(tactic| okr) => `(tactic|
  ((with_reducible refine ok_bump ?_ ?_ ?_); decide; omega; intro _ _ _))
macro_rules | `(tactic| okr) => `(tactic|
  ((with_reducible refine ok_bumpAny' ?_ ?_ ?_); nt; omega; intro _ _ _ _ _ _ _))
macro_rules | `(tactic| okr) => `(tactic| (with_reducible refine ok_atTs ?_ ?_) <;> intro _)
macro_rules | `(tactic| okr) => `(tactic| ((with_reducible refine ok_start ?_ ?_ ?_); nt; omega; intro _))
macro_rules | `(tactic| okr) => `(tactic| ((with_reducible refine ok_error ?_ ?_ ?_); nt; omega))
macro_rules | `(tactic| okr) => `(tactic|
  ((with_reducible refine ok_complete ?_ ?_ ?_ ?_); nt; (first | decide | (split <;> decide)); omega;
   intro _))
macro_rules | `(tactic| okr) => `(tactic| ((with_reducible refine ok_abandon ?_ ?_ ?_); nt; omega))
macro_rules | `(tactic| okr) => `(tactic|
  ((with_reducible refine ok_precede ?_ ?_ ?_); nt; omega; intro _))
macro_rules | `(tactic| okr) => `(tactic|
  ((with_reducible refine ok_call' ?_ ?_ ?_); (simp only [cost]; omega);
   (first | exact ⟨by nt, rfl⟩ | exact ⟨by nt, by omega⟩ | exact ⟨by nt, by assumption⟩ | (show _ = _; nt));
   intro _ _ _ _ _ _ hcall; simp only [cost] at hcall))
macro_rules | `(tactic| okr) => `(tactic|
  ((with_reducible refine ok_expect ?_ ?_ ?_ ?_); decide; nt; omega; intro _ _ _ _ _ _ _))
macro_rules | `(tactic| okr) => `(tactic|
  ((with_reducible refine ok_neither ?_ ?_ ?_); omega; all_goals intros))
/-- Use a lemma about a function that keeps the markers. -/
macro "okk" t:term : tactic => `(tactic|
  ((with_reducible refine $t ?_ ?_ ?_); nt; omega; intro _ _ _ _ _ _ _))
macro_rules | `(tactic| okr) => `(tactic| okk ok_errRecover)

/-- All rules. -/
macro "oka" : tactic => `(tactic| repeat' okr)

theorem ok_errAndBump {msg : String} {Q : Unit → Ctx → Prop} (hk : k.isTrivia = false)
    (hc : 4 ≤ cr) (h : Keep op cr 4 Q) : Ok (errAndBump msg) ⟨k, nx, op, la, cr⟩ Q :=
  ok_errRecover hk hc h

macro_rules | `(tactic| okr) => `(tactic| okk ok_errAndBump)

/-! grammar.rs -/

theorem ok_nameR {ts : TokenSet} {Q : Unit → Ctx → Prop} (hk : k.isTrivia = false)
    (hc : 4 ≤ cr) (h : Keep op cr 4 Q) : Ok (nameR ts) ⟨k, nx, op, la, cr⟩ Q := by
  unfold nameR
  oka

macro_rules | `(tactic| okr) => `(tactic| okk ok_nameR)

theorem ok_name {Q : Unit → Ctx → Prop} (hk : k.isTrivia = false)
    (hc : 4 ≤ cr) (h : Keep op cr 4 Q) : Ok name ⟨k, nx, op, la, cr⟩ Q := ok_nameR hk hc h

macro_rules | `(tactic| okr) => `(tactic| okk ok_name)

/-- `name_ref` at an identifier consumes it. -/
theorem ok_nameRef_ident {Q : Unit → Ctx → Prop} (hc : 4 ≤ cr)
    (h : ∀ y : Kind, y.isTrivia = false → (∀ z, nx = some z → z.isTrivia = false → y = z) →
      ∀ nx la cr', cr ≤ cr' + 4 → Q () ⟨y, nx, op, la, cr'⟩) :
    Ok nameRef ⟨IDENT, nx, op, la, cr⟩ Q := by
  unfold nameRef
  oka
  exact h _ ‹_› ‹_› _ _ _ (by omega)

theorem ok_nameRef {Q : Unit → Ctx → Prop} (hk : k.isTrivia = false)
    (hc : 4 ≤ cr) (h : Keep op cr 4 Q) : Ok nameRef ⟨k, nx, op, la, cr⟩ Q := by
  unfold nameRef
  oka

macro_rules | `(tactic| okr) => `(tactic| okk ok_nameRef)
set_option hygiene false in
macro_rules | `(tactic| okr) => `(tactic|
  ((with_reducible refine ok_nameRef_ident ?_ ?_); omega; intro y hy hz _ _ _ _;
   first | (obtain rfl := hz _ rfl rfl) | skip))

/-! paths.rs -/

theorem ok_isPathStart {Q : Bool → Ctx → Prop} (ht : k = IDENT → Q true ⟨k, nx, op, la, cr⟩)
    (hf : k ≠ IDENT → Q false ⟨k, nx, op, la, cr⟩) : Ok isPathStart ⟨k, nx, op, la, cr⟩ Q := by
  refine ok_bind (ok_current (ok_pure ?_))
  cases hb : k == IDENT with
  | true => exact ht (eq_of_beq hb)
  | false => exact hf (by simpa using hb)

set_option hygiene false in
macro_rules | `(tactic| okr) => `(tactic|
  ((with_reducible refine ok_isPathStart (fun hcond => ?_) (fun hcond => ?_)); all_goals
    first | (subst hcond) | (cases hcond; done) | exact absurd rfl hcond | (cases hcond) | skip))

theorem ok_pathSegment {b : Bool} {Q : Unit → Ctx → Prop} (hk : k.isTrivia = false)
    (hc : 8 ≤ cr) (h : Keep op cr 8 Q) : Ok (pathSegment b) ⟨k, nx, op, la, cr⟩ Q := by
  unfold pathSegment
  oka

macro_rules | `(tactic| okr) => `(tactic| okk ok_pathSegment)

/-- The first segment looks up a token. -/
theorem ok_pathSegment_true {Q : Unit → Ctx → Prop} (hk : k.isTrivia = false)
    (hc : 8 ≤ cr) (h : Keep op (cr + 150) 0 Q) : Ok (pathSegment true) ⟨k, nx, op, la, cr⟩ Q := by
  unfold pathSegment
  oka

macro_rules | `(tactic| okr) => `(tactic| okk ok_pathSegment_true)

theorem ok_path {Q : Unit → Ctx → Prop} (hk : k.isTrivia = false)
    (hc : 12 ≤ cr) (h : Keep op (cr + 100) 0 Q) : Ok path ⟨k, nx, op, la, cr⟩ Q := by
  unfold path
  oka

macro_rules | `(tactic| okr) => `(tactic| okk ok_path)

/-! types.rs -/

theorem ok_refType {Q : Unit → Ctx → Prop} (hc : 20 ≤ cr) (h : Keep op cr 20 Q) :
    Ok refType ⟨AMP, nx, op, la, cr⟩ Q := by
  unfold refType
  oka

theorem ok_pathType {Q : Unit → Ctx → Prop} (hc : 20 ≤ cr) (h : Keep op cr 20 Q) :
    Ok pathType ⟨IDENT, nx, op, la, cr⟩ Q := by
  unfold pathType
  oka

/-- Use a lemma about a function that keeps the markers and is called at a certain token. -/
macro "okt" t:term : tactic => `(tactic|
  ((with_reducible refine $t ?_ ?_); omega; intro _ _ _ _ _ _ _))

macro_rules | `(tactic| okr) => `(tactic| okt ok_refType)
macro_rules | `(tactic| okr) => `(tactic| okt ok_pathType)

theorem ok_typeBody {Q : Unit → Ctx → Prop} (hk : k.isTrivia = false)
    (hc : 29 ≤ cr) (h : Keep op cr 29 Q) : Ok typeBody ⟨k, nx, op, la, cr⟩ Q := by
  unfold typeBody
  oka

macro_rules | `(tactic| okr) => `(tactic| okk ok_typeBody)

theorem ok_ascription {Q : Unit → Ctx → Prop} (hc : 20 ≤ cr) (h : Keep op cr 20 Q) :
    Ok ascription ⟨COLON, nx, op, la, cr⟩ Q := by
  unfold ascription
  oka

macro_rules | `(tactic| okr) => `(tactic| okt ok_ascription)

theorem ok_pathLoopBody {q : Completed} {Q : Unit → Ctx → Prop} (hk : k.isTrivia = false)
    (hc : 29 ≤ cr) (h : Keep op cr 29 Q) : Ok (pathLoopBody q) ⟨k, nx, op, some q, cr⟩ Q := by
  unfold pathLoopBody
  oka

/-! generic_params.rs -/

theorem ok_typeBound {Q : Bool → Ctx → Prop} (hk : k.isTrivia = false)
    (hc : 20 ≤ cr) (h : Keep op cr 20 Q) : Ok typeBound ⟨k, nx, op, la, cr⟩ Q := by
  unfold typeBound
  oka

macro_rules | `(tactic| okr) => `(tactic| okk ok_typeBound)

theorem ok_boundsLoopBody {Q : Unit → Ctx → Prop} (hk : k.isTrivia = false)
    (hc : 29 ≤ cr) (h : Keep op cr 29 Q) : Ok boundsLoopBody ⟨k, nx, op, la, cr⟩ Q := by
  unfold boundsLoopBody
  oka

macro_rules | `(tactic| okr) => `(tactic| okk ok_boundsLoopBody)

theorem ok_bounds {Q : Unit → Ctx → Prop} (hc : 20 ≤ cr)
    (h : Keep op cr 20 Q) : Ok bounds ⟨COLON, nx, op, la, cr⟩ Q := by
  unfold bounds
  oka

macro_rules | `(tactic| okr) => `(tactic| okt ok_bounds)

theorem ok_typeParam {m : Marker} {Q : Unit → Ctx → Prop} (hc : 10 ≤ cr)
    (h : Keep op cr 10 Q) : Ok (typeParam m) ⟨IDENT, nx, (m, false) :: op, la, cr⟩ Q := by
  unfold typeParam
  oka

macro_rules | `(tactic| okr) => `(tactic| okt ok_typeParam)

theorem ok_genericParam {Q : Unit → Ctx → Prop} (hk : k.isTrivia = false)
    (hc : 20 ≤ cr) (h : Keep op cr 20 Q) : Ok genericParam ⟨k, nx, op, la, cr⟩ Q := by
  unfold genericParam
  oka

macro_rules | `(tactic| okr) => `(tactic| okk ok_genericParam)

theorem ok_genericParamLoopBody {Q : Unit → Ctx → Prop} (hk : k.isTrivia = false)
    (hc : 29 ≤ cr) (h : Keep op cr 29 Q) : Ok genericParamLoopBody ⟨k, nx, op, la, cr⟩ Q := by
  unfold genericParamLoopBody
  oka

macro_rules | `(tactic| okr) => `(tactic| okk ok_genericParamLoopBody)

theorem ok_genericParamList {Q : Unit → Ctx → Prop} (hc : 20 ≤ cr)
    (h : Keep op cr 20 Q) : Ok genericParamList ⟨LT, nx, op, la, cr⟩ Q := by
  unfold genericParamList
  oka

macro_rules | `(tactic| okr) => `(tactic| okt ok_genericParamList)

theorem ok_optGenericParamList {Q : Unit → Ctx → Prop} (hk : k.isTrivia = false)
    (hc : 20 ≤ cr) (h : Keep op cr 20 Q) : Ok optGenericParamList ⟨k, nx, op, la, cr⟩ Q := by
  unfold optGenericParamList
  oka

macro_rules | `(tactic| okr) => `(tactic| okk ok_optGenericParamList)

/-! params.rs -/

theorem ok_param {m : Marker} {Q : Unit → Ctx → Prop} (hk : k.isTrivia = false)
    (hc : 20 ≤ cr) (h : Keep op cr 20 Q) : Ok (param m) ⟨k, nx, (m, false) :: op, la, cr⟩ Q := by
  unfold param
  oka

macro_rules | `(tactic| okr) => `(tactic| okk ok_param)

theorem ok_paramLoopBody {Q : Unit → Ctx → Prop} (hk : k.isTrivia = false)
    (hc : 29 ≤ cr) (h : Keep op cr 29 Q) : Ok paramLoopBody ⟨k, nx, op, la, cr⟩ Q := by
  unfold paramLoopBody
  oka

macro_rules | `(tactic| okr) => `(tactic| okk ok_paramLoopBody)

theorem ok_paramList {Q : Unit → Ctx → Prop} (hc : 20 ≤ cr)
    (h : Keep op cr 20 Q) : Ok paramList ⟨L_PAREN, nx, op, la, cr⟩ Q := by
  unfold paramList
  oka

macro_rules | `(tactic| okr) => `(tactic| okt ok_paramList)

/-! patterns.rs -/

theorem ok_identPat {Q : Unit → Ctx → Prop} (hk : k.isTrivia = false)
    (hc : 10 ≤ cr) (h : Keep op cr 10 Q) : Ok identPat ⟨k, nx, op, la, cr⟩ Q := by
  unfold identPat
  oka

macro_rules | `(tactic| okr) => `(tactic| okk ok_identPat)

theorem ok_restPat {Q : Unit → Ctx → Prop} (hc : 20 ≤ cr)
    (h : Keep op cr 20 Q) : Ok restPat ⟨DOTDOT, nx, op, la, cr⟩ Q := by
  unfold restPat
  oka

macro_rules | `(tactic| okr) => `(tactic| okt ok_restPat)

theorem ok_wildcardPat {Q : Unit → Ctx → Prop} (hc : 20 ≤ cr)
    (h : Keep op cr 20 Q) : Ok wildcardPat ⟨WILDCARD, nx, op, la, cr⟩ Q := by
  unfold wildcardPat
  oka

macro_rules | `(tactic| okr) => `(tactic| okt ok_wildcardPat)

theorem ok_tuplePatLoopBody {a b c : Bool} {Q : Bool × Bool × Bool → Ctx → Prop} (hk : k.isTrivia = false)
    (hc : 29 ≤ cr) (h : Keep op cr 29 Q) : Ok (tuplePatLoopBody a b c) ⟨k, nx, op, la, cr⟩ Q := by
  unfold tuplePatLoopBody
  oka

macro_rules | `(tactic| okr) => `(tactic| okk ok_tuplePatLoopBody)

theorem ok_tuplePat {Q : Unit → Ctx → Prop} (hc : 20 ≤ cr)
    (h : Keep op cr 20 Q) : Ok tuplePat ⟨L_PAREN, nx, op, la, cr⟩ Q := by
  unfold tuplePat
  oka

macro_rules | `(tactic| okr) => `(tactic| okt ok_tuplePat)

theorem ok_errorBlock {msg : String} {Q : Unit → Ctx → Prop} (hc : 20 ≤ cr)
    (h : Keep op cr 20 Q) : Ok (errorBlock msg) ⟨L_BRACE, nx, op, la, cr⟩ Q := by
  unfold errorBlock
  oka

macro_rules | `(tactic| okr) => `(tactic| okt ok_errorBlock)

theorem ok_recordPatField {Q : Unit → Ctx → Prop} (hk : k.isTrivia = false)
    (hc : 20 ≤ cr) (h : Keep op cr 20 Q) : Ok recordPatField ⟨k, nx, op, la, cr⟩ Q := by
  unfold recordPatField
  oka

macro_rules | `(tactic| okr) => `(tactic| okk ok_recordPatField)

theorem ok_recordPatEntry {Q : Unit → Ctx → Prop} (hk : k.isTrivia = false)
    (hc : 20 ≤ cr) (h : Keep op cr 20 Q) : Ok recordPatEntry ⟨k, nx, op, la, cr⟩ Q := by
  unfold recordPatEntry
  oka

macro_rules | `(tactic| okr) => `(tactic| okk ok_recordPatEntry)

theorem ok_recordPatLoopBody {Q : Unit → Ctx → Prop} (hk : k.isTrivia = false)
    (hc : 29 ≤ cr) (h : Keep op cr 29 Q) : Ok recordPatLoopBody ⟨k, nx, op, la, cr⟩ Q := by
  unfold recordPatLoopBody
  oka

macro_rules | `(tactic| okr) => `(tactic| okk ok_recordPatLoopBody)

theorem ok_recordPatFieldList {Q : Unit → Ctx → Prop} (hc : 10 ≤ cr)
    (h : Keep op cr 10 Q) : Ok recordPatFieldList ⟨L_BRACE, nx, op, la, cr⟩ Q := by
  unfold recordPatFieldList
  oka

macro_rules | `(tactic| okr) => `(tactic| okt ok_recordPatFieldList)

theorem ok_pathPat {Q : Unit → Ctx → Prop} (hc : 20 ≤ cr)
    (h : Keep op cr 20 Q) : Ok pathPat ⟨IDENT, nx, op, la, cr⟩ Q := by
  unfold pathPat
  oka

macro_rules | `(tactic| okr) => `(tactic| okt ok_pathPat)

theorem ok_patternRest {Q : Unit → Ctx → Prop} (hk : k.isTrivia = false)
    (hc : 20 ≤ cr) (h : Keep op cr 20 Q) : Ok (patternRest k) ⟨k, nx, op, la, cr⟩ Q := by
  unfold patternRest
  oka

macro_rules | `(tactic| okr) => `(tactic| okk ok_patternRest)

theorem ok_patternBody {Q : Unit → Ctx → Prop} (hk : k.isTrivia = false)
    (hc : 29 ≤ cr) (h : Keep op cr 29 Q) : Ok patternBody ⟨k, nx, op, la, cr⟩ Q := by
  unfold patternBody
  oka

macro_rules | `(tactic| okr) => `(tactic| okk ok_patternBody)

/-! expressions/atom.rs -/

/-- Like `Keep`, for a function that returns the node it has just completed. -/
def KeepC (op : List (Marker × Bool)) (cr n : Nat) (Q : Completed → Ctx → Prop) : Prop :=
  ∀ r k nx cr', Kind.isTrivia k = false → cr ≤ cr' + n → Q r ⟨k, nx, op, some r, cr'⟩

set_option hygiene false in
macro_rules | `(tactic| okr) => `(tactic| (refine h _ _ _ _ (by nt) ?_; (try simp only [cost]); omega))

macro "okc" t:term : tactic => `(tactic|
  ((with_reducible refine $t ?_ ?_ ?_); nt; omega; intro _ _ _ _ _ _))
macro "oktc" t:term : tactic => `(tactic|
  ((with_reducible refine $t ?_ ?_); omega; intro _ _ _ _ _ _))

theorem ok_bumpAddress {Q : Bool → Ctx → Prop} (hk : k.isTrivia = false) (hc : 2 ≤ cr)
    (ht : ∀ y : Kind, y.isTrivia = false → (∀ z, nx = some z → z.isTrivia = false → y = z) →
      ∀ cr', cr ≤ cr' → Q true ⟨y, none, op, none, cr'⟩)
    (hf : ∀ cr', cr ≤ cr' + 1 → Q false ⟨k, nx, op, la, cr'⟩) :
    Ok bumpAddress ⟨k, nx, op, la, cr⟩ Q := by
  unfold bumpAddress
  oka
  · exact ht _ ‹_› ‹_› _ (by omega)
  · unfold bumpRemap
    refine ok_bind (ok_nth0 (by omega) ?_)
    refine ok_ite (fun h => by cases h) (fun _ => ?_)
    refine ⟨by simp only; omega, (fun h => by cases h), .inr ⟨rfl, rfl⟩, fun x h1 h2 => ?_⟩
    exact ht _ h1 h2 _ (by simp only [gain]; omega)
  · exact hf _ (by omega)
  · exact hf _ (by omega)

theorem ok_errorAndSkipUntil {msg : String} {ts : TokenSet} {Q : Completed → Ctx → Prop}
    (hk : k.isTrivia = false) (hc : 5 ≤ cr)
    (h : ∀ r k' nx' cr', Kind.isTrivia k' = false → cr ≤ cr' + 5 →
      (((ts.union (TokenSet.new [EOF])).contains k = true → k' = k) ∧
       ((ts.union (TokenSet.new [EOF])).contains k = false → ∀ y, nx = some y → y.isTrivia = false →
         (ts.union (TokenSet.new [EOF])).contains y = true → k' = y)) →
      Q r ⟨k', nx', op, some r, cr'⟩) :
    Ok (errorAndSkipUntil msg ts) ⟨k, nx, op, la, cr⟩ Q := by
  unfold errorAndSkipUntil
  refine ok_bind (ok_start hk (by omega) fun m => ?_)
  refine ok_bind (ok_error hk (by omega) ?_)
  refine ok_bind (ok_call (by simp only [cost]; omega) ⟨hk, ?_⟩ ?_)
  · rw [TokenSet.contains_union]
    have : (TokenSet.new [EOF]).contains EOF = true := (TokenSet.contains_new ..).2 (by simp)
    simp [this]
  · intro r k' nx' la' cr' hp hcr
    obtain ⟨h1, h2, h3, h4⟩ := hp
    simp only [cost] at hcr
    exact ok_complete h1 (by decide) (by omega) fun r => h _ _ _ _ h1 (by omega) ⟨h3, h4⟩

theorem ok_errorAndSkipUntil' {msg : String} {ts : TokenSet} {Q : Completed → Ctx → Prop}
    (hk : k.isTrivia = false) (hc : 5 ≤ cr) (h : KeepC op cr 5 Q) :
    Ok (errorAndSkipUntil msg ts) ⟨k, nx, op, la, cr⟩ Q :=
  ok_errorAndSkipUntil hk hc fun r k' nx' cr' h1 h2 _ => h r k' nx' cr' h1 h2

macro_rules | `(tactic| okr) => `(tactic| okc ok_errorAndSkipUntil')
macro_rules | `(tactic| okr) => `(tactic|
  ((with_reducible refine ok_bumpAddress ?_ ?_ ?_ ?_); nt; omega; all_goals intros))

theorem ok_addressLit {Q : Completed → Ctx → Prop} (hc : 5 ≤ cr)
    (h : KeepC op cr 5 Q) : Ok addressLit ⟨ATSIGN, nx, op, la, cr⟩ Q := by
  unfold addressLit
  oka

macro_rules | `(tactic| okr) => `(tactic| oktc ok_addressLit)

theorem ok_literal {Q : Option Completed → Ctx → Prop} (hk : k.isTrivia = false) (hc : 10 ≤ cr)
    (hn : Q none ⟨k, nx, op, la, cr⟩) (h : KeepC op cr 10 fun r => Q (some r)) :
    Ok literal ⟨k, nx, op, la, cr⟩ Q := by
  unfold literal
  oka
  exact hn

theorem ok_expr {Q : Option Completed → Ctx → Prop} (hk : k.isTrivia = false) (hc : 30 ≤ cr)
    (h : Keep op cr 30 Q) : Ok expr ⟨k, nx, op, la, cr⟩ Q :=
  ok_call' (f := .exprBp 1) hc ⟨hk, Nat.le_refl _⟩ h

macro_rules | `(tactic| okr) => `(tactic| okk ok_expr)

theorem ok_parenLoopBody {Q : Bool → Ctx → Prop} (hk : k.isTrivia = false)
    (hc : 29 ≤ cr) (h : Keep op cr 29 Q) : Ok parenLoopBody ⟨k, nx, op, la, cr⟩ Q := by
  unfold parenLoopBody
  oka

macro_rules | `(tactic| okr) => `(tactic| okk ok_parenLoopBody)

theorem ok_parenExpr {Q : Completed → Ctx → Prop} (hc : 5 ≤ cr)
    (h : KeepC op cr 5 Q) : Ok parenExpr ⟨L_PAREN, nx, op, la, cr⟩ Q := by
  unfold parenExpr
  oka

macro_rules | `(tactic| okr) => `(tactic| oktc ok_parenExpr)

theorem ok_blockLoopBody {Q : Unit → Ctx → Prop} (hk : k.isTrivia = false)
    (hc : 29 ≤ cr) (h : Keep op cr 29 Q) : Ok blockLoopBody ⟨k, nx, op, la, cr⟩ Q := by
  unfold blockLoopBody
  oka

macro_rules | `(tactic| okr) => `(tactic| okk ok_blockLoopBody)

theorem ok_blockExprUnchecked {Q : Completed → Ctx → Prop} (hc : 5 ≤ cr)
    (h : KeepC op cr 5 Q) : Ok blockExprUnchecked ⟨L_BRACE, nx, op, la, cr⟩ Q := by
  unfold blockExprUnchecked
  oka

macro_rules | `(tactic| okr) => `(tactic| oktc ok_blockExprUnchecked)

theorem ok_blockExpr {Q : Unit → Ctx → Prop} (hk : k.isTrivia = false)
    (hc : 5 ≤ cr) (h : Keep op cr 5 Q) : Ok blockExpr ⟨k, nx, op, la, cr⟩ Q := by
  unfold blockExpr
  oka

macro_rules | `(tactic| okr) => `(tactic| okk ok_blockExpr)

theorem ok_recordExprField {Q : Unit → Ctx → Prop} (hk : k.isTrivia = false)
    (hc : 29 ≤ cr) (h : Keep op cr 29 Q) : Ok recordExprField ⟨k, nx, op, la, cr⟩ Q := by
  unfold recordExprField
  oka

macro_rules | `(tactic| okr) => `(tactic| okk ok_recordExprField)

theorem ok_recordExprLoopBody {Q : Unit → Ctx → Prop} (hk : k.isTrivia = false)
    (hc : 29 ≤ cr) (h : Keep op cr 29 Q) : Ok recordExprLoopBody ⟨k, nx, op, la, cr⟩ Q := by
  unfold recordExprLoopBody
  oka

macro_rules | `(tactic| okr) => `(tactic| okk ok_recordExprLoopBody)

theorem ok_recordExprFieldList {Q : Unit → Ctx → Prop} (hc : 10 ≤ cr)
    (h : Keep op cr 10 Q) : Ok recordExprFieldList ⟨L_BRACE, nx, op, la, cr⟩ Q := by
  unfold recordExprFieldList
  oka

macro_rules | `(tactic| okr) => `(tactic| okt ok_recordExprFieldList)

theorem ok_pathExpr {Q : Completed → Ctx → Prop} (hc : 15 ≤ cr)
    (h : KeepC op cr 15 Q) : Ok pathExpr ⟨IDENT, nx, op, la, cr⟩ Q := by
  unfold pathExpr
  oka

macro_rules | `(tactic| okr) => `(tactic| oktc ok_pathExpr)

theorem ok_atomExpr {Q : Option Completed → Ctx → Prop} (hk : k.isTrivia = false) (hc : 20 ≤ cr)
    (h : KeepC op cr 20 fun r => Q (some r)) : Ok atomExpr ⟨k, nx, op, la, cr⟩ Q := by
  unfold atomExpr
  refine ok_bind (ok_literal hk (by omega) ?_ ?_)
  · simp only
    oka
  · intro _ _ _ _ _ _
    simp only
    oka

end Verif.Parser
