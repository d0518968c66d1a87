import Verif.Parser.Reformat

set_option autoImplicit false

/-!
What stands in front does not matter.  Two runs of a function of the grammar from the same tokens, the second
one with more nodes already finished in front (`front`) and with more lookups already used up (`more`), do the
same: the second leaves the same nodes behind those in front, or the lookups run out.
-/

namespace Verif.Parser

open Kind

theorem Forest.append_assoc (a b c : Forest) : (a.append b).append c = a.append (b.append c) := by
  induction c with
  | nil => rfl
  | tok i k ih => simp only [Forest.append, ih]
  | err i m ih => simp only [Forest.append, ih]
  | tomb i ih => simp only [Forest.append, ih]
  | node i k pre kids ih _ _ => simp only [Forest.append, ih]

theorem Forest.nil_append (a : Forest) : Forest.nil.append a = a := by
  induction a with
  | nil => rfl
  | tok i k ih => simp only [Forest.append, ih]
  | err i m ih => simp only [Forest.append, ih]
  | tomb i ih => simp only [Forest.append, ih]
  | node i k pre kids ih _ _ => simp only [Forest.append, ih]

/-- What the two runs have in common: what stands in front in the second, the lookups it has used up in front,
and the open nodes around the two runs. -/
structure Frame where
  front : Forest
  more : Nat
  around : List (Forest × Forest)
  around' : List (Forest × Forest)

/-- The open nodes of the two runs, `d` of them opened since the start. -/
inductive Levels (F : Frame) : Nat → Forest → List (Forest × Forest) → Forest → List (Forest × Forest) → Prop where
  | base (items : Forest) : Levels F 0 items F.around (F.front.append items) F.around'
  | up {d : Nat} {items items' : Forest} {outer outer' : List (Forest × Forest)} (pre cur : Forest) :
      Levels F d items outer items' outer' → Levels F (d + 1) cur ((pre, items) :: outer) cur ((pre, items') :: outer')

structure StateShift (F : Frame) (d : Nat) (s s' : TState) : Prop where
  toks : s'.toks = s.toks
  used : s'.used = s.used + F.more
  levels : Levels F d s.items s.outer s'.items s'.outer

theorem Levels.extend {F : Frame} {d : Nat} {i i' : Forest} {o o' : List (Forest × Forest)} (h : Levels F d i o i' o')
    (x : Forest) : Levels F d (i.append x) o (i'.append x) o' := by
  cases h with
  | base => rw [Forest.append_assoc]; exact .base _
  | up pre _ h => exact .up pre _ h

/-- The outcomes correspond.  Nothing is said if the lookups of the second run have run out, or if the first run
closes a node that it has not opened, which does not happen. -/
inductive OutShift (F : Frame) {α β : Type} (R : α → β → Prop) (d : Nat) : Out TState α → Out TState β → Prop where
  | stuck (o : Out TState α) : OutShift F R d o (.panic .stuck)
  | events (o : Out TState β) : OutShift F R d (.panic .events) o
  | ok {a : α} {b : β} {s s' : TState} : R a b → StateShift F d s s' → OutShift F R d (.ok a s) (.ok b s')
  | panic (w : Panic) : OutShift F R d (.panic w) (.panic w)
  | fuel : OutShift F R d .outOfFuel .outOfFuel

def Whatever {α β : Type} (_ : α) (_ : β) : Prop := True

def BothOrNone {α β : Type} (a : Option α) (b : Option β) : Prop := a.isSome = b.isSome

/-- How the results of a function correspond. -/
@[reducible] def ResShift : (f : Fn) → f.Res → f.Res → Prop
  | .tuplePatLoop _ _ _ => Eq
  | .exprBp _ => BothOrNone
  | .exprBpLoop _ _ => Whatever
  | .postfixLoop _ => Whatever
  | .parenLoop => Eq
  | .skipUntil _ | .rootLoop | .addressItemLoop | .itemLoop | .recordFieldLoop | .paramLoop | .type_ | .pathLoop _
  | .genericParamLoop | .boundsLoop | .pattern | .recordPatLoop | .blockLoop | .exprBlockLoop | .stmt _ | .argLoop
  | .recordExprLoop => Eq

/-- The same function; markers may differ. -/
inductive FnShift : (f f' : Fn) → (f.Res → f'.Res → Prop) → Prop where
  | same (f : Fn) : FnShift f f (ResShift f)
  | pathLoop (q q' : Completed) : FnShift (.pathLoop q) (.pathLoop q') (Eq : Unit → Unit → Prop)
  | exprBpLoop (bp : Nat) (q q' : Completed) : FnShift (.exprBpLoop bp q) (.exprBpLoop bp q') (Whatever : Completed → Completed → Prop)
  | postfixLoop (q q' : Completed) : FnShift (.postfixLoop q) (.postfixLoop q') (Whatever : Completed → Completed → Prop)

def CalleeShift (F : Frame) (c : (f : Fn) → TState → Out TState f.Res) : Prop :=
  ∀ f f' R, FnShift f f' R → ∀ d s s', StateShift F d s s' → OutShift F R d (c f s) (c f' s')

/-- The two programs do the same; they start with `d` nodes open and end with `e`. -/
def Par {α β : Type} (R : α → β → Prop) (d e : Nat) (p : Prog α) (p' : Prog β) : Prop :=
  ∀ F c, CalleeShift F c → ∀ s s', StateShift F d s s' → OutShift F R e (run tokenLevel c p s) (run tokenLevel c p' s')

theorem OutShift.bind {F : Frame} {α β α' β' : Type} {R : α → β → Prop} {R' : α' → β' → Prop} {d e : Nat}
    {o : Out TState α} {o' : Out TState β} {f : α → TState → Out TState α'} {f' : β → TState → Out TState β'}
    (h : OutShift F R d o o') (hf : ∀ a b s s', R a b → StateShift F d s s' → OutShift F R' e (f a s) (f' b s')) :
    OutShift F R' e (o.bind f) (o'.bind f') := by
  cases h with
  | stuck => exact .stuck _
  | events => exact .events _
  | ok hr hs => exact hf _ _ _ _ hr hs
  | panic => exact .panic _
  | fuel => exact .fuel

theorem par_bind {α β α' β' : Type} {R : α → β → Prop} {R' : α' → β' → Prop} {d e g : Nat} {p : Prog α} {p' : Prog β}
    {k : α → Prog α'} {k' : β → Prog β'} (hp : Par R d e p p') (hk : ∀ a b, R a b → Par R' e g (k a) (k' b)) :
    Par R' d g (p >>= k) (p' >>= k') := by
  intro F c hc s s' hs
  rw [run_bind_eq, run_bind_eq]
  exact (hp F c hc s s' hs).bind fun a b s s' hr h => hk a b hr F c hc s s' h

theorem par_pure {α β : Type} {R : α → β → Prop} {d : Nat} {a : α} {b : β} (h : R a b) :
    Par R d d (pure a : Prog α) (pure b : Prog β) := fun _ _ _ _ _ hs => .ok h hs

theorem par_ret {α β : Type} {R : α → β → Prop} {d : Nat} {a : α} {b : β} (h : R a b) :
    Par R d d (Prog.pure a) (Prog.pure b) := fun _ _ _ _ _ hs => .ok h hs

theorem par_panic {α β : Type} {R : α → β → Prop} {d e : Nat} (w : Panic) :
    Par R d e (.panic w : Prog α) (.panic w : Prog β) := fun _ _ _ _ _ _ => .panic w

theorem par_current {d : Nat} : Par Eq d d current current := by
  intro F c _ s s' hs
  refine .ok ?_ hs
  show kind0 s.toks = kind0 s'.toks
  rw [hs.toks]

theorem par_currentText {d : Nat} : Par Eq d d currentText currentText := by
  intro F c _ s s' hs
  refine .ok ?_ hs
  show text0 s.toks = text0 s'.toks
  rw [hs.toks]

theorem par_nth {d : Nat} (n : Nat) : Par Eq d d (nth n) (nth n) := by
  intro F c _ s s' hs
  simp only [nth, run, tokenLevel, tNthLimited]
  have hu := hs.used
  by_cases hn : n ≤ 3
  · by_cases h1 : s'.used ≤ stepLimit
    · have h2 : s.used ≤ stepLimit := by omega
      simp only [hn, h1, h2, if_true]
      have hst : StateShift F d { s with used := s.used + 1 } { s' with used := s'.used + 1 } :=
        ⟨hs.toks, by simp only [hu]; omega, hs.levels⟩
      match n with
      | 0 => exact .ok (by rw [hs.toks]) hst
      | 1 => exact .ok (by rw [hs.toks]) hst
      | 2 => exact .ok (by rw [hs.toks]) hst
      | _ + 3 => exact .panic _
    · simp only [hn, h1, if_true, if_false]; exact .stuck _
  · simp only [hn, if_false]; exact .panic _

theorem par_doBump {d : Nat} (k : Kind) : Par Eq d d (doBump k) (doBump k) := by
  intro F c _ s s' hs
  refine .ok rfl ⟨?_, hs.used, hs.levels.extend (.tok .nil k)⟩
  show s'.toks.tail = s.toks.tail
  rw [hs.toks]

theorem par_start {d : Nat} : Par Whatever d (d + 1) start start := fun _ _ _ _ _ hs =>
  .ok trivial ⟨hs.toks, hs.used, .up _ _ hs.levels⟩

theorem par_error {d : Nat} (msg : String) : Par Eq d d (error msg) (error msg) := fun _ _ _ _ _ hs =>
  .ok rfl ⟨hs.toks, hs.used, hs.levels.extend (.err .nil msg)⟩

theorem par_call {d : Nat} (f : Fn) {R : f.Res → f.Res → Prop} (hR : ResShift f = R) : Par R d d (call f) (call f) :=
  fun _ _ hc s s' hs => (hc _ _ _ (.same f) d s s' hs).bind fun _ _ _ _ hr h => .ok (hR ▸ hr) h

theorem par_callPath {d : Nat} (q q' : Completed) :
    Par (Eq : Unit → Unit → Prop) d d (call (.pathLoop q) : Prog Unit) (call (.pathLoop q') : Prog Unit) :=
  fun _ _ hc s s' hs => (hc _ _ _ (.pathLoop q q') d s s' hs).bind fun _ _ _ _ hr h => .ok hr h

theorem par_callBp {d : Nat} (bp : Nat) (q q' : Completed) :
    Par (Whatever : Completed → Completed → Prop) d d (call (.exprBpLoop bp q) : Prog Completed)
      (call (.exprBpLoop bp q') : Prog Completed) :=
  fun _ _ hc s s' hs => (hc _ _ _ (.exprBpLoop bp q q') d s s' hs).bind fun _ _ _ _ hr h => .ok hr h

theorem par_callPostfix {d : Nat} (q q' : Completed) :
    Par (Whatever : Completed → Completed → Prop) d d (call (.postfixLoop q) : Prog Completed)
      (call (.postfixLoop q') : Prog Completed) :=
  fun _ _ hc s s' hs => (hc _ _ _ (.postfixLoop q q') d s s' hs).bind fun _ _ _ _ hr h => .ok hr h

theorem par_complete {d : Nat} (m m' : Marker) (kind : Kind) : Par Whatever (d + 1) d (m.complete kind) (m'.complete kind) := by
  intro F c _ s s' hs
  obtain ⟨toks, used, n, items, outer⟩ := s
  obtain ⟨toks', used', n', items', outer'⟩ := s'
  obtain ⟨h1, h2, h3⟩ := hs
  simp only at h1 h2 h3
  cases h3 with
  | up pre _ h => exact .ok trivial ⟨h1, h2, h.extend (.node .nil kind pre items)⟩

theorem par_abandon {d : Nat} (m m' : Marker) : Par Eq (d + 1) d m.abandon m'.abandon := by
  intro F c _ s s' hs
  obtain ⟨toks, used, n, items, outer⟩ := s
  obtain ⟨toks', used', n', items', outer'⟩ := s'
  obtain ⟨h1, h2, h3⟩ := hs
  simp only at h1 h2 h3
  cases h3 with
  | up pre _ h =>
    simp only [Marker.abandon, run, tokenLevel, tokenFree, tAbandon]
    by_cases hi : items = .nil
    · simp only [hi, if_true, Out.bind]
      exact .ok rfl ⟨h1, h2, h⟩
    · simp only [hi, if_false, Out.bind]
      exact .ok rfl ⟨h1, h2, (h.extend (.tomb .nil)).extend items⟩

theorem par_precede {d : Nat} (q q' : Completed) : Par Whatever d (d + 1) q.precede q'.precede := by
  intro F c _ s s' hs
  obtain ⟨toks, used, n, items, outer⟩ := s
  obtain ⟨toks', used', n', items', outer'⟩ := s'
  obtain ⟨h1, h2, h3⟩ := hs
  simp only at h1 h2 h3
  simp only [Completed.precede, run, tokenLevel, tokenFree, tPrecede]
  cases items with
  | node init kind pre kids =>
    cases h3 with
    | base => exact .ok trivial ⟨h1, h2, .up _ _ (.base init)⟩
    | up p _ h => exact .ok trivial ⟨h1, h2, .up _ _ (.up p init h)⟩
  | _ => exact .events _

theorem par_ite {α β : Type} {R : α → β → Prop} {d e : Nat} {c : Prop} [Decidable c] {p q : Prog α} {p' q' : Prog β}
    (hp : Par R d e p p') (hq : Par R d e q q') : Par R d e (if c then p else q) (if c then p' else q') := by
  split
  · exact hp
  · exact hq


section
variable {d : Nat}
theorem par_call_skipUntil (ts : TokenSet) : Par (Eq : Unit → Unit → Prop) d d (call (.skipUntil ts) : Prog Unit) (call (.skipUntil ts) : Prog Unit) := par_call (.skipUntil ts) rfl
theorem par_call_rootLoop : Par (Eq : Unit → Unit → Prop) d d (call .rootLoop : Prog Unit) (call .rootLoop : Prog Unit) := par_call .rootLoop rfl
theorem par_call_addressItemLoop : Par (Eq : Unit → Unit → Prop) d d (call .addressItemLoop : Prog Unit) (call .addressItemLoop : Prog Unit) := par_call .addressItemLoop rfl
theorem par_call_itemLoop : Par (Eq : Unit → Unit → Prop) d d (call .itemLoop : Prog Unit) (call .itemLoop : Prog Unit) := par_call .itemLoop rfl
theorem par_call_recordFieldLoop : Par (Eq : Unit → Unit → Prop) d d (call .recordFieldLoop : Prog Unit) (call .recordFieldLoop : Prog Unit) := par_call .recordFieldLoop rfl
theorem par_call_paramLoop : Par (Eq : Unit → Unit → Prop) d d (call .paramLoop : Prog Unit) (call .paramLoop : Prog Unit) := par_call .paramLoop rfl
theorem par_call_type_ : Par (Eq : Unit → Unit → Prop) d d (call .type_ : Prog Unit) (call .type_ : Prog Unit) := par_call .type_ rfl
theorem par_call_genericParamLoop : Par (Eq : Unit → Unit → Prop) d d (call .genericParamLoop : Prog Unit) (call .genericParamLoop : Prog Unit) := par_call .genericParamLoop rfl
theorem par_call_boundsLoop : Par (Eq : Unit → Unit → Prop) d d (call .boundsLoop : Prog Unit) (call .boundsLoop : Prog Unit) := par_call .boundsLoop rfl
theorem par_call_pattern : Par (Eq : Unit → Unit → Prop) d d (call .pattern : Prog Unit) (call .pattern : Prog Unit) := par_call .pattern rfl
theorem par_call_recordPatLoop : Par (Eq : Unit → Unit → Prop) d d (call .recordPatLoop : Prog Unit) (call .recordPatLoop : Prog Unit) := par_call .recordPatLoop rfl
theorem par_call_blockLoop : Par (Eq : Unit → Unit → Prop) d d (call .blockLoop : Prog Unit) (call .blockLoop : Prog Unit) := par_call .blockLoop rfl
theorem par_call_exprBlockLoop : Par (Eq : Unit → Unit → Prop) d d (call .exprBlockLoop : Prog Unit) (call .exprBlockLoop : Prog Unit) := par_call .exprBlockLoop rfl
theorem par_call_stmt (w : StmtWithSemi) : Par (Eq : Unit → Unit → Prop) d d (call (.stmt w) : Prog Unit) (call (.stmt w) : Prog Unit) := par_call (.stmt w) rfl
theorem par_call_argLoop : Par (Eq : Unit → Unit → Prop) d d (call .argLoop : Prog Unit) (call .argLoop : Prog Unit) := par_call .argLoop rfl
theorem par_call_recordExprLoop : Par (Eq : Unit → Unit → Prop) d d (call .recordExprLoop : Prog Unit) (call .recordExprLoop : Prog Unit) := par_call .recordExprLoop rfl
theorem par_call_tuplePatLoop (x y z : Bool) : Par (Eq : Bool × Bool × Bool → Bool × Bool × Bool → Prop) d d
    (call (.tuplePatLoop x y z) : Prog (Bool × Bool × Bool)) (call (.tuplePatLoop x y z) : Prog (Bool × Bool × Bool)) :=
  par_call (.tuplePatLoop x y z) rfl
theorem par_call_exprBp (bp : Nat) : Par (BothOrNone : Option Completed → Option Completed → Prop) d d
    (call (.exprBp bp) : Prog (Option Completed)) (call (.exprBp bp) : Prog (Option Completed)) := par_call (.exprBp bp) rfl
theorem par_call_parenLoop : Par (Eq : Bool → Bool → Prop) d d (call .parenLoop : Prog Bool) (call .parenLoop : Prog Bool) :=
  par_call .parenLoop rfl
end

theorem BothOrNone.cases {α β : Type} {a : Option α} {b : Option β} (h : BothOrNone a b) :
    (a = none ∧ b = none) ∨ ∃ x y, a = some x ∧ b = some y := by
  unfold BothOrNone at h
  cases a <;> cases b <;> simp_all

theorem par_none {α β : Type} {d : Nat} : Par BothOrNone d d (pure (none : Option α)) (pure (none : Option β)) :=
  par_pure rfl

theorem par_some {α β : Type} {d : Nat} {a : α} {b : β} : Par BothOrNone d d (pure (some a)) (pure (some b)) :=
  par_pure rfl

theorem par_what {α β : Type} {d : Nat} {a : α} {b : β} : Par Whatever d d (pure a) (pure b) :=
  par_pure trivial

theorem par_bind_opt {α β α' β' : Type} {R' : α' → β' → Prop} {d e g : Nat} {p : Prog (Option α)} {p' : Prog (Option β)}
    {k : Option α → Prog α'} {k' : Option β → Prog β'} (hp : Par BothOrNone d e p p')
    (hn : Par R' e g (k none) (k' none)) (hk : ∀ a b, Whatever a b → Par R' e g (k (some a)) (k' (some b))) :
    Par R' d g (p >>= k) (p' >>= k') := by
  refine par_bind hp fun a b h => ?_
  rcases BothOrNone.cases h with ⟨rfl, rfl⟩ | ⟨x, y, rfl, rfl⟩
  · exact hn
  · exact hk x y trivial


syntax "parr" : tactic
macro_rules | `(tactic| parr) => `(tactic| with_reducible first
  | exact par_pure rfl | exact par_ret rfl | exact par_pure trivial | exact par_ret trivial | exact par_panic _
  | exact par_what | exact par_none | exact par_some | exact par_current | exact par_currentText
  | exact par_nth _ | exact par_doBump _ | exact par_start | exact par_error _ | exact par_callPath _ _
  | exact par_callBp _ _ _ | exact par_callPostfix _ _ | exact par_call_skipUntil _ | exact par_call_rootLoop | exact par_call_addressItemLoop | exact par_call_itemLoop
  | exact par_call_recordFieldLoop | exact par_call_paramLoop | exact par_call_type_ | exact par_call_genericParamLoop
  | exact par_call_boundsLoop | exact par_call_pattern | exact par_call_recordPatLoop | exact par_call_blockLoop
  | exact par_call_exprBlockLoop | exact par_call_stmt _ | exact par_call_argLoop | exact par_call_recordExprLoop
  | exact par_call_tuplePatLoop _ _ _ | exact par_call_exprBp _ | exact par_call_parenLoop
  | exact par_abandon _ _ | exact par_precede _ _ | exact par_complete _ _ _)

/-- Goes through two programs. -/
macro "par" : tactic => `(tactic| repeat' (first
  | parr
  | (with_reducible refine par_bind_opt (by parr) ?_ ?_ <;>
       try simp only [Option.isNone_none, Option.isNone_some, Bool.false_eq_true, ↓reduceIte])
  | (with_reducible refine par_bind (by parr) ?_)
  | with_reducible refine par_ite ?_ ?_
  | (with_reducible refine par_bind ?_ ?_)
  | (with_reducible intro _ _ h; cases h)
  | (with_reducible intro _ _ _)
  | split))

theorem par_assert {d : Nat} (b : Bool) (what : String) : Par Eq d d (assert b what) (assert b what) := by
  unfold assert
  par

macro_rules | `(tactic| parr) => `(tactic| with_reducible exact par_assert _ _)

theorem par_nthAt {d : Nat} (n : Nat) (kind : Kind) : Par Eq d d (nthAt n kind) (nthAt n kind) := by
  unfold nthAt
  par

macro_rules | `(tactic| parr) => `(tactic| with_reducible exact par_nthAt _ _)

theorem par_at_ {d : Nat} (kind : Kind) : Par Eq d d (at_ kind) (at_ kind) := by
  unfold at_
  par

macro_rules | `(tactic| parr) => `(tactic| with_reducible exact par_at_ _)

theorem par_eat {d : Nat} (kind : Kind) : Par Eq d d (eat kind) (eat kind) := by
  unfold eat
  par

macro_rules | `(tactic| parr) => `(tactic| with_reducible exact par_eat _)

theorem par_atTs {d : Nat} (kinds : TokenSet) : Par Eq d d (atTs kinds) (atTs kinds) := by
  unfold atTs
  par

macro_rules | `(tactic| parr) => `(tactic| with_reducible exact par_atTs _)

theorem par_bump {d : Nat} (kind : Kind) : Par Eq d d (bump kind) (bump kind) := by
  unfold bump
  par

macro_rules | `(tactic| parr) => `(tactic| with_reducible exact par_bump _)

theorem par_bumpAny {d : Nat} : Par Eq d d bumpAny bumpAny := by
  unfold bumpAny
  par

macro_rules | `(tactic| parr) => `(tactic| with_reducible exact par_bumpAny)

theorem par_bumpRemap {d : Nat} (kind : Kind) : Par Eq d d (bumpRemap kind) (bumpRemap kind) := by
  unfold bumpRemap
  par

macro_rules | `(tactic| parr) => `(tactic| with_reducible exact par_bumpRemap _)

theorem par_expect {d : Nat} (kind : Kind) : Par Eq d d (expect kind) (expect kind) := by
  unfold expect
  par

macro_rules | `(tactic| parr) => `(tactic| with_reducible exact par_expect _)

theorem par_errRecover {d : Nat} (message : String) (recovery : TokenSet) : Par Eq d d (errRecover message recovery) (errRecover message recovery) := by
  unfold errRecover
  par

macro_rules | `(tactic| parr) => `(tactic| with_reducible exact par_errRecover _ _)

theorem par_errAndBump {d : Nat} (message : String) : Par Eq d d (errAndBump message) (errAndBump message) := by
  unfold errAndBump
  par

macro_rules | `(tactic| parr) => `(tactic| with_reducible exact par_errAndBump _)

theorem par_errorAndSkipUntil {d : Nat} (message : String) (endTokens : TokenSet) : Par Whatever d d (errorAndSkipUntil message endTokens) (errorAndSkipUntil message endTokens) := by
  unfold errorAndSkipUntil
  par

macro_rules | `(tactic| parr) => `(tactic| with_reducible exact par_errorAndSkipUntil _ _)

theorem par_skipUntilBody {d : Nat} (endTokens : TokenSet) : Par Eq d d (skipUntilBody endTokens) (skipUntilBody endTokens) := by
  unfold skipUntilBody
  par

macro_rules | `(tactic| parr) => `(tactic| with_reducible exact par_skipUntilBody _)

theorem par_neither {d : Nat} (a : Kind) (b : Kind) : Par Eq d d (neither a b) (neither a b) := by
  unfold neither
  par

macro_rules | `(tactic| parr) => `(tactic| with_reducible exact par_neither _ _)

theorem par_nameR {d : Nat} (recovery : TokenSet) : Par Eq d d (nameR recovery) (nameR recovery) := by
  unfold nameR
  par

macro_rules | `(tactic| parr) => `(tactic| with_reducible exact par_nameR _)

theorem par_name {d : Nat} : Par Eq d d name name := by
  unfold name
  par

macro_rules | `(tactic| parr) => `(tactic| with_reducible exact par_name)

theorem par_nameRef {d : Nat} : Par Eq d d nameRef nameRef := by
  unfold nameRef
  par

macro_rules | `(tactic| parr) => `(tactic| with_reducible exact par_nameRef)

theorem par_isPathStart {d : Nat} : Par Eq d d isPathStart isPathStart := by
  unfold isPathStart
  par

macro_rules | `(tactic| parr) => `(tactic| with_reducible exact par_isPathStart)

theorem par_pathSegment {d : Nat} (first : Bool) : Par Eq d d (pathSegment first) (pathSegment first) := by
  unfold pathSegment
  par

macro_rules | `(tactic| parr) => `(tactic| with_reducible exact par_pathSegment _)

theorem par_path {d : Nat} : Par Eq d d path path := by
  unfold path
  par

macro_rules | `(tactic| parr) => `(tactic| with_reducible exact par_path)

theorem par_pathLoopBody {d : Nat} (qual qual' : Completed) : Par Eq d d (pathLoopBody qual) (pathLoopBody qual') := by
  unfold pathLoopBody
  par

macro_rules | `(tactic| parr) => `(tactic| with_reducible exact par_pathLoopBody _ _)

theorem par_refType {d : Nat} : Par Eq d d refType refType := by
  unfold refType
  par

macro_rules | `(tactic| parr) => `(tactic| with_reducible exact par_refType)

theorem par_pathType {d : Nat} : Par Eq d d pathType pathType := by
  unfold pathType
  par

macro_rules | `(tactic| parr) => `(tactic| with_reducible exact par_pathType)

theorem par_typeBody {d : Nat} : Par Eq d d typeBody typeBody := by
  unfold typeBody
  par

macro_rules | `(tactic| parr) => `(tactic| with_reducible exact par_typeBody)

theorem par_ascription {d : Nat} : Par Eq d d ascription ascription := by
  unfold ascription
  par

macro_rules | `(tactic| parr) => `(tactic| with_reducible exact par_ascription)

theorem par_typeBound {d : Nat} : Par Eq d d typeBound typeBound := by
  unfold typeBound
  par

macro_rules | `(tactic| parr) => `(tactic| with_reducible exact par_typeBound)

theorem par_boundsLoopBody {d : Nat} : Par Eq d d boundsLoopBody boundsLoopBody := by
  unfold boundsLoopBody
  par

macro_rules | `(tactic| parr) => `(tactic| with_reducible exact par_boundsLoopBody)

theorem par_bounds {d : Nat} : Par Eq d d bounds bounds := by
  unfold bounds
  par

macro_rules | `(tactic| parr) => `(tactic| with_reducible exact par_bounds)

theorem par_typeParam {d : Nat} (m m' : Marker) : Par Eq (d + 1) d (typeParam m) (typeParam m') := by
  unfold typeParam
  par

macro_rules | `(tactic| parr) => `(tactic| with_reducible exact par_typeParam _ _)

theorem par_genericParam {d : Nat} : Par Eq d d genericParam genericParam := by
  unfold genericParam
  par

macro_rules | `(tactic| parr) => `(tactic| with_reducible exact par_genericParam)

theorem par_genericParamLoopBody {d : Nat} : Par Eq d d genericParamLoopBody genericParamLoopBody := by
  unfold genericParamLoopBody
  par

macro_rules | `(tactic| parr) => `(tactic| with_reducible exact par_genericParamLoopBody)

theorem par_genericParamList {d : Nat} : Par Eq d d genericParamList genericParamList := by
  unfold genericParamList
  par

macro_rules | `(tactic| parr) => `(tactic| with_reducible exact par_genericParamList)

theorem par_optGenericParamList {d : Nat} : Par Eq d d optGenericParamList optGenericParamList := by
  unfold optGenericParamList
  par

macro_rules | `(tactic| parr) => `(tactic| with_reducible exact par_optGenericParamList)

theorem par_param {d : Nat} (m m' : Marker) : Par Eq (d + 1) d (param m) (param m') := by
  unfold param
  par

macro_rules | `(tactic| parr) => `(tactic| with_reducible exact par_param _ _)

theorem par_paramLoopBody {d : Nat} : Par Eq d d paramLoopBody paramLoopBody := by
  unfold paramLoopBody
  par

macro_rules | `(tactic| parr) => `(tactic| with_reducible exact par_paramLoopBody)

theorem par_paramList {d : Nat} : Par Eq d d paramList paramList := by
  unfold paramList
  par

macro_rules | `(tactic| parr) => `(tactic| with_reducible exact par_paramList)

theorem par_identPat {d : Nat} : Par Eq d d identPat identPat := by
  unfold identPat
  par

macro_rules | `(tactic| parr) => `(tactic| with_reducible exact par_identPat)

theorem par_restPat {d : Nat} : Par Eq d d restPat restPat := by
  unfold restPat
  par

macro_rules | `(tactic| parr) => `(tactic| with_reducible exact par_restPat)

theorem par_wildcardPat {d : Nat} : Par Eq d d wildcardPat wildcardPat := by
  unfold wildcardPat
  par

macro_rules | `(tactic| parr) => `(tactic| with_reducible exact par_wildcardPat)

theorem par_tuplePatLoopBody {d : Nat} (hasComma : Bool) (hasPat : Bool) (hasRest : Bool) : Par Eq d d (tuplePatLoopBody hasComma hasPat hasRest) (tuplePatLoopBody hasComma hasPat hasRest) := by
  unfold tuplePatLoopBody
  par

macro_rules | `(tactic| parr) => `(tactic| with_reducible exact par_tuplePatLoopBody _ _ _)

theorem par_tuplePat {d : Nat} : Par Eq d d tuplePat tuplePat := by
  unfold tuplePat
  par

macro_rules | `(tactic| parr) => `(tactic| with_reducible exact par_tuplePat)

theorem par_errorBlock {d : Nat} (message : String) : Par Eq d d (errorBlock message) (errorBlock message) := by
  unfold errorBlock
  par

macro_rules | `(tactic| parr) => `(tactic| with_reducible exact par_errorBlock _)

theorem par_recordPatField {d : Nat} : Par Eq d d recordPatField recordPatField := by
  unfold recordPatField
  par

macro_rules | `(tactic| parr) => `(tactic| with_reducible exact par_recordPatField)

theorem par_recordPatEntry {d : Nat} : Par Eq d d recordPatEntry recordPatEntry := by
  unfold recordPatEntry
  par

macro_rules | `(tactic| parr) => `(tactic| with_reducible exact par_recordPatEntry)

theorem par_recordPatLoopBody {d : Nat} : Par Eq d d recordPatLoopBody recordPatLoopBody := by
  unfold recordPatLoopBody
  par

macro_rules | `(tactic| parr) => `(tactic| with_reducible exact par_recordPatLoopBody)

theorem par_recordPatFieldList {d : Nat} : Par Eq d d recordPatFieldList recordPatFieldList := by
  unfold recordPatFieldList
  par

macro_rules | `(tactic| parr) => `(tactic| with_reducible exact par_recordPatFieldList)

theorem par_pathPat {d : Nat} : Par Eq d d pathPat pathPat := by
  unfold pathPat
  par

macro_rules | `(tactic| parr) => `(tactic| with_reducible exact par_pathPat)

theorem par_patternRest {d : Nat} (cur : Kind) : Par Eq d d (patternRest cur) (patternRest cur) := by
  unfold patternRest
  par

macro_rules | `(tactic| parr) => `(tactic| with_reducible exact par_patternRest _)

theorem par_patternBody {d : Nat} : Par Eq d d patternBody patternBody := by
  unfold patternBody
  par

macro_rules | `(tactic| parr) => `(tactic| with_reducible exact par_patternBody)

theorem par_bumpAddress {d : Nat} : Par Eq d d bumpAddress bumpAddress := by
  unfold bumpAddress
  par

macro_rules | `(tactic| parr) => `(tactic| with_reducible exact par_bumpAddress)

theorem par_addressLit {d : Nat} : Par Whatever d d addressLit addressLit := by
  unfold addressLit
  par

macro_rules | `(tactic| parr) => `(tactic| with_reducible exact par_addressLit)

theorem par_literal {d : Nat} : Par BothOrNone d d literal literal := by
  unfold literal
  par

macro_rules | `(tactic| parr) => `(tactic| with_reducible exact par_literal)

theorem par_expr {d : Nat} : Par BothOrNone d d expr expr := by
  unfold expr
  par

macro_rules | `(tactic| parr) => `(tactic| with_reducible exact par_expr)

theorem par_parenLoopBody {d : Nat} : Par Eq d d parenLoopBody parenLoopBody := by
  unfold parenLoopBody
  par

macro_rules | `(tactic| parr) => `(tactic| with_reducible exact par_parenLoopBody)

theorem par_parenExpr {d : Nat} : Par Whatever d d parenExpr parenExpr := by
  unfold parenExpr
  par

macro_rules | `(tactic| parr) => `(tactic| with_reducible exact par_parenExpr)

theorem par_blockLoopBody {d : Nat} : Par Eq d d blockLoopBody blockLoopBody := by
  unfold blockLoopBody
  par

macro_rules | `(tactic| parr) => `(tactic| with_reducible exact par_blockLoopBody)

theorem par_blockExprUnchecked {d : Nat} : Par Whatever d d blockExprUnchecked blockExprUnchecked := by
  unfold blockExprUnchecked
  par

macro_rules | `(tactic| parr) => `(tactic| with_reducible exact par_blockExprUnchecked)

theorem par_blockExpr {d : Nat} : Par Eq d d blockExpr blockExpr := by
  unfold blockExpr
  par

macro_rules | `(tactic| parr) => `(tactic| with_reducible exact par_blockExpr)

theorem par_recordExprField {d : Nat} : Par Eq d d recordExprField recordExprField := by
  unfold recordExprField
  par

macro_rules | `(tactic| parr) => `(tactic| with_reducible exact par_recordExprField)

theorem par_recordExprLoopBody {d : Nat} : Par Eq d d recordExprLoopBody recordExprLoopBody := by
  unfold recordExprLoopBody
  par

macro_rules | `(tactic| parr) => `(tactic| with_reducible exact par_recordExprLoopBody)

theorem par_recordExprFieldList {d : Nat} : Par Eq d d recordExprFieldList recordExprFieldList := by
  unfold recordExprFieldList
  par

macro_rules | `(tactic| parr) => `(tactic| with_reducible exact par_recordExprFieldList)

theorem par_pathExpr {d : Nat} : Par Whatever d d pathExpr pathExpr := by
  unfold pathExpr
  par

macro_rules | `(tactic| parr) => `(tactic| with_reducible exact par_pathExpr)

theorem par_atomExpr {d : Nat} : Par BothOrNone d d atomExpr atomExpr := by
  unfold atomExpr
  par

macro_rules | `(tactic| parr) => `(tactic| with_reducible exact par_atomExpr)

theorem par_currentOp {d : Nat} : Par Eq d d currentOp currentOp := by
  unfold currentOp
  par

macro_rules | `(tactic| parr) => `(tactic| with_reducible exact par_currentOp)

theorem par_argLoopBody {d : Nat} : Par Eq d d argLoopBody argLoopBody := by
  unfold argLoopBody
  par

macro_rules | `(tactic| parr) => `(tactic| with_reducible exact par_argLoopBody)

theorem par_argList {d : Nat} : Par Eq d d argList argList := by
  unfold argList
  par

macro_rules | `(tactic| parr) => `(tactic| with_reducible exact par_argList)

theorem par_callExpr {d : Nat} (lhs lhs' : Completed) : Par Whatever d d (callExpr lhs) (callExpr lhs') := by
  unfold callExpr
  par

macro_rules | `(tactic| parr) => `(tactic| with_reducible exact par_callExpr _ _)

theorem par_fieldExpr {d : Nat} (lhs lhs' : Completed) : Par Whatever d d (fieldExpr lhs) (fieldExpr lhs') := by
  unfold fieldExpr
  par

macro_rules | `(tactic| parr) => `(tactic| with_reducible exact par_fieldExpr _ _)

theorem par_postfixLoopBody {d : Nat} (lhs lhs' : Completed) : Par Whatever d d (postfixLoopBody lhs) (postfixLoopBody lhs') := by
  unfold postfixLoopBody
  par

macro_rules | `(tactic| parr) => `(tactic| with_reducible exact par_postfixLoopBody _ _)

theorem par_lhsExpr {d : Nat} : Par BothOrNone d d lhsExpr lhsExpr := by
  unfold lhsExpr
  par

macro_rules | `(tactic| parr) => `(tactic| with_reducible exact par_lhsExpr)

theorem par_exprBpLoopBody {d : Nat} (bp : Nat) (lhs lhs' : Completed) : Par Whatever d d (exprBpLoopBody bp lhs) (exprBpLoopBody bp lhs') := by
  unfold exprBpLoopBody
  par

macro_rules | `(tactic| parr) => `(tactic| with_reducible exact par_exprBpLoopBody _ _ _)

theorem par_exprBpBody {d : Nat} (bp : Nat) : Par BothOrNone d d (exprBpBody bp) (exprBpBody bp) := by
  unfold exprBpBody
  par

macro_rules | `(tactic| parr) => `(tactic| with_reducible exact par_exprBpBody _)

theorem par_semi {d : Nat} (withSemi : StmtWithSemi) : Par Eq d d (semi withSemi) (semi withSemi) := by
  unfold semi
  par

macro_rules | `(tactic| parr) => `(tactic| with_reducible exact par_semi _)

theorem par_letTail {d : Nat} (m m' : Marker) (withSemi : StmtWithSemi) :
    Par Eq (d + 1) d (do semi withSemi; let _ ← m.complete LET_STMT) (do semi withSemi; let _ ← m'.complete LET_STMT) := by
  par

theorem par_letValue {d : Nat} (m m' : Marker) (withSemi : StmtWithSemi) :
    Par Eq (d + 1) d
      (do
        if ← eat EQ then
          let _ ← expr
        semi withSemi
        let _ ← m.complete LET_STMT)
      (do
        if ← eat EQ then
          let _ ← expr
        semi withSemi
        let _ ← m'.complete LET_STMT) := by
  refine par_bind (by parr) ?_
  intro a b h; cases h
  refine par_ite ?_ ?_
  · refine par_bind (by parr) fun _ _ _ => par_letTail _ _ _
  · exact par_letTail _ _ _

theorem par_letStmt {d : Nat} (m m' : Marker) (withSemi : StmtWithSemi) : Par Eq (d + 1) d (letStmt m withSemi) (letStmt m' withSemi) := by
  unfold letStmt
  refine par_bind (by parr) ?_
  intro a b h; cases h
  refine par_bind (by parr) ?_
  intro a b h; cases h
  refine par_bind (by parr) ?_
  intro a b h; cases h
  refine par_bind (by parr) ?_
  intro a b h; cases h
  refine par_bind (by parr) ?_
  intro a b h; cases h
  refine par_ite ?_ ?_
  · exact par_bind (by parr) fun _ _ _ => par_letValue _ _ _
  · exact par_letValue _ _ _

macro_rules | `(tactic| parr) => `(tactic| with_reducible exact par_letStmt _ _ _)

theorem par_stmtBody {d : Nat} (withSemi : StmtWithSemi) : Par Eq d d (stmtBody withSemi) (stmtBody withSemi) := by
  unfold stmtBody
  par

macro_rules | `(tactic| parr) => `(tactic| with_reducible exact par_stmtBody _)

theorem par_exprBlockLoopBody {d : Nat} : Par Eq d d exprBlockLoopBody exprBlockLoopBody := by
  unfold exprBlockLoopBody
  par

macro_rules | `(tactic| parr) => `(tactic| with_reducible exact par_exprBlockLoopBody)

theorem par_recordField {d : Nat} : Par Eq d d recordField recordField := by
  unfold recordField
  par

macro_rules | `(tactic| parr) => `(tactic| with_reducible exact par_recordField)

theorem par_recordFieldLoopBody {d : Nat} : Par Eq d d recordFieldLoopBody recordFieldLoopBody := by
  unfold recordFieldLoopBody
  par

macro_rules | `(tactic| parr) => `(tactic| with_reducible exact par_recordFieldLoopBody)

theorem par_recordFieldList {d : Nat} : Par Eq d d recordFieldList recordFieldList := by
  unfold recordFieldList
  par

macro_rules | `(tactic| parr) => `(tactic| with_reducible exact par_recordFieldList)

theorem par_structDef {d : Nat} (m m' : Marker) : Par Eq (d + 1) d (structDef m) (structDef m') := by
  unfold structDef
  par

macro_rules | `(tactic| parr) => `(tactic| with_reducible exact par_structDef _ _)

theorem par_optRetType {d : Nat} : Par Eq d d optRetType optRetType := by
  unfold optRetType
  par

macro_rules | `(tactic| parr) => `(tactic| with_reducible exact par_optRetType)

theorem par_functionDef {d : Nat} (m m' : Marker) : Par Eq (d + 1) d (functionDef m) (functionDef m') := by
  unfold functionDef
  par

macro_rules | `(tactic| parr) => `(tactic| with_reducible exact par_functionDef _ _)

theorem par_optItem {d : Nat} (m m' : Marker) : Par Eq (d + 1) d (optItem m) (optItem m') := by
  unfold optItem
  par

macro_rules | `(tactic| parr) => `(tactic| with_reducible exact par_optItem _ _)

theorem par_item {d : Nat} : Par Eq d d item item := by
  unfold item
  par

macro_rules | `(tactic| parr) => `(tactic| with_reducible exact par_item)

theorem par_itemLoopBody {d : Nat} : Par Eq d d itemLoopBody itemLoopBody := by
  unfold itemLoopBody
  par

macro_rules | `(tactic| parr) => `(tactic| with_reducible exact par_itemLoopBody)

theorem par_itemList {d : Nat} : Par Eq d d itemList itemList := by
  unfold itemList
  par

macro_rules | `(tactic| parr) => `(tactic| with_reducible exact par_itemList)

theorem par_addressIdentR {d : Nat} (recoveryTokens : TokenSet) : Par Eq d d (addressIdentR recoveryTokens) (addressIdentR recoveryTokens) := by
  unfold addressIdentR
  par

macro_rules | `(tactic| parr) => `(tactic| with_reducible exact par_addressIdentR _)

theorem par_itemListOrSemi {d : Nat} : Par Eq d d itemListOrSemi itemListOrSemi := by
  unfold itemListOrSemi
  par

macro_rules | `(tactic| parr) => `(tactic| with_reducible exact par_itemListOrSemi)

theorem par_moduleDef {d : Nat} : Par Eq d d moduleDef moduleDef := by
  unfold moduleDef
  par

macro_rules | `(tactic| parr) => `(tactic| with_reducible exact par_moduleDef)

theorem par_addressItemLoopBody {d : Nat} : Par Eq d d addressItemLoopBody addressItemLoopBody := by
  unfold addressItemLoopBody
  par

macro_rules | `(tactic| parr) => `(tactic| with_reducible exact par_addressItemLoopBody)

theorem par_addressItemList {d : Nat} : Par Eq d d addressItemList addressItemList := by
  unfold addressItemList
  par

macro_rules | `(tactic| parr) => `(tactic| with_reducible exact par_addressItemList)

theorem par_addressDef {d : Nat} : Par Eq d d addressDef addressDef := by
  unfold addressDef
  par

macro_rules | `(tactic| parr) => `(tactic| with_reducible exact par_addressDef)

theorem par_scriptDef {d : Nat} : Par Eq d d scriptDef scriptDef := by
  unfold scriptDef
  par

macro_rules | `(tactic| parr) => `(tactic| with_reducible exact par_scriptDef)

theorem par_rootLoopBody {d : Nat} : Par Eq d d rootLoopBody rootLoopBody := by
  unfold rootLoopBody
  par

macro_rules | `(tactic| parr) => `(tactic| with_reducible exact par_rootLoopBody)

theorem par_root {d : Nat} : Par Eq d d root root := by
  unfold root
  par

macro_rules | `(tactic| parr) => `(tactic| with_reducible exact par_root)

/-- The bodies of the functions correspond. -/
theorem par_body {d : Nat} {f f' : Fn} {R : f.Res → f'.Res → Prop} (h : FnShift f f' R) : Par R d d (body f) (body f') := by
  cases h with
  | pathLoop q q' => exact par_pathLoopBody q q'
  | exprBpLoop bp q q' => exact par_exprBpLoopBody bp q q'
  | postfixLoop q q' => exact par_postfixLoopBody q q'
  | same =>
    cases f with
    | skipUntil ts => exact par_skipUntilBody ts
    | rootLoop => exact par_rootLoopBody
    | addressItemLoop => exact par_addressItemLoopBody
    | itemLoop => exact par_itemLoopBody
    | recordFieldLoop => exact par_recordFieldLoopBody
    | paramLoop => exact par_paramLoopBody
    | type_ => exact par_typeBody
    | pathLoop q => exact par_pathLoopBody q q
    | genericParamLoop => exact par_genericParamLoopBody
    | boundsLoop => exact par_boundsLoopBody
    | pattern => exact par_patternBody
    | tuplePatLoop a b c => exact par_tuplePatLoopBody a b c
    | recordPatLoop => exact par_recordPatLoopBody
    | blockLoop => exact par_blockLoopBody
    | exprBlockLoop => exact par_exprBlockLoopBody
    | stmt s => exact par_stmtBody s
    | exprBp bp => exact par_exprBpBody bp
    | exprBpLoop bp q => exact par_exprBpLoopBody bp q q
    | postfixLoop q => exact par_postfixLoopBody q q
    | argLoop => exact par_argLoopBody
    | recordExprLoop => exact par_recordExprLoopBody
    | parenLoop => exact par_parenLoopBody

/-- Runs of the functions correspond. -/
theorem shift_callN (F : Frame) (n : Nat) : CalleeShift F (callN tokenLevel body n) := by
  induction n with
  | zero => exact fun _ _ _ _ _ _ _ _ => .fuel
  | succ n ih => exact fun f f' R h d s s' hs => par_body h F _ ih s s' hs

end Verif.Parser
