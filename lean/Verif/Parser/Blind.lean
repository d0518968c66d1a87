import Verif.Parser.Layout
import Verif.Parser.ErrorEvents

set_option autoImplicit false

/-!
How much of the layout the grammar sees.  `ToksAlike` relates two lists of significant tokens that
are the same except for what stands around them, and except where the grammar looks at that: between
a name and `{`, between a name or number and `:`, between the token behind `module` and `::`, and
behind `::`.  Every function of the grammar does the same on such lists.
-/

namespace Verif.Parser

open Kind

/-- The same token, in surroundings that look the same to the grammar. -/
structure TokAlike (t t' : Tok) : Prop where
  kind : t.kind = t'.kind
  hex : t.kind = INTEGER_NUMBER → Lexer.startsWith t.text "0x" = Lexer.startsWith t'.text "0x"
  brace : t.kind = IDENT → (t.la1 = L_BRACE ↔ t'.la1 = L_BRACE)
  colon : t.kind = IDENT ∨ t.kind = INTEGER_NUMBER → (t.la1 = COLON ↔ t'.la1 = COLON)
  tree : t.kind = COLON_COLON → ((t.la2 = STAR ∨ t.la2 = L_BRACE) ↔ (t'.la2 = STAR ∨ t'.la2 = L_BRACE))

inductive ToksAlike : List Tok → List Tok → Prop where
  | nil : ToksAlike [] []
  | cons {t t' : Tok} {r r' : List Tok} : TokAlike t t' →
      (t.kind = MODULE_KW → (kind1 r = COLON_COLON ↔ kind1 r' = COLON_COLON)) → ToksAlike r r' →
      ToksAlike (t :: r) (t' :: r')

structure StateAlike (s s' : TState) : Prop where
  toks : ToksAlike s.toks s'.toks
  used : s.used = s'.used
  n : s.n = s'.n
  items : s.items = s'.items
  outer : s.outer = s'.outer

def OutAlike {α : Type} : Out TState α → Out TState α → Prop
  | .ok a s, .ok a' s' => a = a' ∧ StateAlike s s'
  | .panic w, .panic w' => w = w'
  | .outOfFuel, .outOfFuel => True
  | _, _ => False

def CalleeAlike (c : (f : Fn) → TState → Out TState f.Res) : Prop :=
  ∀ f s s', StateAlike s s' → OutAlike (c f s) (c f s')

/-- From alike states with a current token of a kind in `K`, `p` does the same. -/
def BlindIf (K : Kind → Prop) {α : Type} (p : Prog α) : Prop :=
  ∀ c, CalleeAlike c → ∀ s s', StateAlike s s' → K (kind0 s.toks) →
    OutAlike (run tokenLevel c p s) (run tokenLevel c p s')

def Blind {α : Type} (p : Prog α) : Prop := BlindIf (fun _ => True) p

theorem Blind.if {α : Type} {p : Prog α} (h : Blind p) (K : Kind → Prop) : BlindIf K p :=
  fun c hc s s' hs _ => h c hc s s' hs trivial

theorem ToksAlike.kind0 {ts ts' : List Tok} (h : ToksAlike ts ts') : kind0 ts = kind0 ts' := by
  cases h with
  | nil => rfl
  | cons h _ _ => exact h.kind

theorem ToksAlike.hex0 {ts ts' : List Tok} (h : ToksAlike ts ts') (hk : Parser.kind0 ts = INTEGER_NUMBER) :
    Lexer.startsWith (text0 ts) "0x" = Lexer.startsWith (text0 ts') "0x" := by
  cases h with
  | nil => rfl
  | cons h _ _ => exact h.hex hk

theorem ToksAlike.tail {ts ts' : List Tok} (h : ToksAlike ts ts') : ToksAlike ts.tail ts'.tail := by
  cases h with
  | nil => exact .nil
  | cons _ _ h => exact h

theorem StateAlike.moreUsed {s s' : TState} (h : StateAlike s s') :
    StateAlike { s with used := s.used + 1 } { s' with used := s'.used + 1 } :=
  ⟨h.toks, by simp only [h.used], h.n, h.items, h.outer⟩

theorem OutAlike.bind {α β : Type} {o o' : Out TState α} {f f' : α → TState → Out TState β} (h : OutAlike o o')
    (hf : ∀ a s s', StateAlike s s' → OutAlike (f a s) (f' a s')) : OutAlike (o.bind f) (o'.bind f') := by
  cases o with
  | ok a s =>
    cases o' with
    | ok a' s' => obtain ⟨rfl, h⟩ := h; exact hf _ _ _ h
    | panic w => exact absurd h id
    | outOfFuel => exact absurd h id
  | panic w =>
    cases o' with
    | ok a' s' => exact absurd h id
    | panic w => exact h
    | outOfFuel => exact absurd h id
  | outOfFuel =>
    cases o' with
    | ok a' s' => exact absurd h id
    | panic w => exact absurd h id
    | outOfFuel => trivial

theorem blindIf_bind {α β : Type} {K : Kind → Prop} {p : Prog α} {k : α → Prog β} (hp : BlindIf K p)
    (hk : ∀ a, Blind (k a)) : BlindIf K (p >>= k) := by
  intro c hc s s' hs hK
  rw [run_bind_eq, run_bind_eq]
  exact (hp c hc s s' hs hK).bind fun a s s' h => hk a c hc s s' h trivial

theorem blind_bind {α β : Type} {p : Prog α} {k : α → Prog β} (hp : Blind p) (hk : ∀ a, Blind (k a)) :
    Blind (p >>= k) := blindIf_bind hp hk

theorem blind_pure {α : Type} (a : α) : Blind (pure a : Prog α) := fun _ _ _ _ h _ => ⟨rfl, h⟩

theorem blind_ret {α : Type} (a : α) : Blind (Prog.pure a) := blind_pure a

theorem blind_panic {α : Type} (w : Panic) : Blind (.panic w : Prog α) := fun _ _ _ _ _ _ => rfl

theorem blind_current : Blind current := fun _ _ _ _ h _ => ⟨h.toks.kind0, h⟩

/-- Of the text of a token the grammar sees whether a number starts with `0x`. -/
theorem blindIf_currentText {β : Type} {k : Text → Prog β} {q : Bool → Prog β}
    (hk : ∀ t, k t = q (Lexer.startsWith t "0x")) (hq : ∀ b, Blind (q b)) :
    BlindIf (· = INTEGER_NUMBER) (currentText >>= k) := by
  intro c hc s s' h hK
  rw [run_bind_eq, run_bind_eq]
  show OutAlike (run tokenLevel c (k (text0 s.toks)) s) (run tokenLevel c (k (text0 s'.toks)) s')
  rw [hk, hk, ← h.toks.hex0 hK]
  exact hq _ c hc s s' h trivial

theorem blind_nth0 : Blind (nth 0) := by
  intro c hc s s' h _
  simp only [nth, run, tokenLevel, tNthLimited, h.used, tNth]
  by_cases hu : s'.used ≤ stepLimit
  · simp only [hu, if_true, Nat.zero_le, Out.bind]
    exact ⟨h.toks.kind0, h.toks, rfl, h.n, h.items, h.outer⟩
  · simp only [hu, if_false, Nat.zero_le, if_true]; rfl

theorem blind_doBump (k : Kind) : Blind (doBump k) := fun _ _ _ _ h _ =>
  ⟨rfl, h.toks.tail, h.used, by simp only [h.n], by simp only [h.items], h.outer⟩

theorem blind_start : Blind start := fun _ _ _ _ h _ =>
  ⟨by simp only [h.n], h.toks, h.used, by simp only [h.n], rfl, by simp only [h.items, h.outer]⟩

theorem blind_error (msg : String) : Blind (error msg) := fun _ _ _ _ h _ =>
  ⟨rfl, h.toks, h.used, by simp only [h.n], by simp only [h.items], h.outer⟩

theorem blind_call (f : Fn) : Blind (call f) := by
  intro c hc s s' h _
  exact (hc f s s' h).bind fun a s s' h => ⟨rfl, h⟩

theorem blind_complete (m : Marker) (kind : Kind) : Blind (m.complete kind) := by
  intro c hc s s' h _
  obtain ⟨toks, used, n, items, outer⟩ := s
  obtain ⟨toks', used', n', items', outer'⟩ := s'
  obtain ⟨h1, h2, h3, h4, h5⟩ := h
  simp only at h1 h2 h3 h4 h5
  subst h2 h3 h4 h5
  simp only [Marker.complete, run, tokenLevel, tokenFree, tComplete]
  cases outer with
  | nil => rfl
  | cons x r => exact ⟨rfl, h1, rfl, rfl, rfl, rfl⟩

theorem blind_abandon (m : Marker) : Blind m.abandon := by
  intro c hc s s' h _
  obtain ⟨toks, used, n, items, outer⟩ := s
  obtain ⟨toks', used', n', items', outer'⟩ := s'
  obtain ⟨h1, h2, h3, h4, h5⟩ := h
  simp only at h1 h2 h3 h4 h5
  subst h2 h3 h4 h5
  simp only [Marker.abandon, run, tokenLevel, tokenFree, tAbandon]
  cases outer with
  | nil => rfl
  | cons x r =>
    by_cases hi : items = .nil
    · simp only [hi, if_true, Out.bind]; exact ⟨rfl, h1, rfl, rfl, rfl, rfl⟩
    · simp only [hi, if_false, Out.bind]; exact ⟨rfl, h1, rfl, rfl, rfl, rfl⟩

theorem blind_precede (q : Completed) : Blind q.precede := by
  intro c hc s s' h _
  obtain ⟨toks, used, n, items, outer⟩ := s
  obtain ⟨toks', used', n', items', outer'⟩ := s'
  obtain ⟨h1, h2, h3, h4, h5⟩ := h
  simp only at h1 h2 h3 h4 h5
  subst h2 h3 h4 h5
  simp only [Completed.precede, run, tokenLevel, tokenFree, tPrecede]
  cases items with
  | node a b c d => exact ⟨rfl, h1, rfl, rfl, rfl, rfl⟩
  | _ => rfl

theorem blind_ite {α : Type} {c : Prop} [Decidable c] {p q : Prog α} (hp : Blind p) (hq : Blind q) :
    Blind (if c then p else q) := by
  split
  · exact hp
  · exact hq

/-- Looking at the current kind tells it. -/
theorem blind_currentIf {β : Type} {k : Kind → Prog β} (hk : ∀ x, BlindIf (· = x) (k x)) : Blind (current >>= k) := by
  intro c hc s s' hs _
  have e : ∀ t : TState, run tokenLevel c (current >>= k) t = run tokenLevel c (k (kind0 t.toks)) t := fun _ => rfl
  rw [e, e, ← hs.toks.kind0]
  exact hk _ c hc s s' hs rfl

/-- A question about the next token but one to which the answer is the same. -/
theorem blindIf_nth {K : Kind → Prop} {β : Type} {n : Nat} (hn : n = 1 ∨ n = 2) {q : Kind → Bool} {k : Bool → Prog β}
    (hq : ∀ ts ts', ToksAlike ts ts' → K (kind0 ts) →
      q ((if n = 1 then kind1 else kind2) ts) = q ((if n = 1 then kind1 else kind2) ts'))
    (hk : ∀ b, BlindIf K (k b)) : BlindIf K (nth n >>= fun x => k (q x)) := by
  intro c hc s s' hs hK
  have e : ∀ t : TState, run tokenLevel c (nth n >>= fun x => k (q x)) t =
      if t.used ≤ stepLimit then run tokenLevel c (k (q ((if n = 1 then kind1 else kind2) t.toks)))
        { t with used := t.used + 1 } else .panic .stuck := by
    intro t
    rw [run_bind_eq]
    simp only [nth, run, tokenLevel, tNthLimited]
    by_cases hu : t.used ≤ stepLimit
    · rcases hn with rfl | rfl <;> simp [hu, tNth, Out.bind]
    · rcases hn with rfl | rfl <;> simp [hu, Out.bind]
  rw [e, e, hs.used, hq _ _ hs.toks hK]
  by_cases hu : s'.used ≤ stepLimit
  · simp only [hu, if_true]
    refine hk _ c hc _ _ ?_ hK
    exact ⟨hs.toks, rfl, hs.n, hs.items, hs.outer⟩
  · simp only [hu, if_false]; rfl

syntax "blindr" : tactic
macro_rules | `(tactic| blindr) => `(tactic| with_reducible first
  | exact blind_pure _ | exact blind_ret _ | exact blind_panic _ | exact blind_current
  | exact blind_nth0 | exact blind_doBump _ | exact blind_start | exact blind_error _ | exact blind_call _
  | exact blind_abandon _ | exact blind_precede _ | exact blind_complete _ _)

/-- Goes through a program. -/
macro "blind" : tactic => `(tactic| repeat' (first
  | blindr
  | with_reducible refine blind_bind ?_ fun _ => ?_
  | with_reducible refine blind_ite ?_ ?_
  | split))

theorem blind_assert (b : Bool) (what : String) : Blind (assert b what) := by
  unfold assert
  blind

macro_rules | `(tactic| blindr) => `(tactic| with_reducible exact blind_assert _ _)

theorem blind_at_ (kind : Kind) : Blind (at_ kind) := by
  unfold at_ nthAt
  blind

macro_rules | `(tactic| blindr) => `(tactic| with_reducible exact blind_at_ _)

theorem blind_eat (kind : Kind) : Blind (eat kind) := by
  unfold eat
  blind

macro_rules | `(tactic| blindr) => `(tactic| with_reducible exact blind_eat _)

theorem blind_atTs (kinds : TokenSet) : Blind (atTs kinds) := by
  unfold atTs
  blind

macro_rules | `(tactic| blindr) => `(tactic| with_reducible exact blind_atTs _)

theorem blind_bump (kind : Kind) : Blind (bump kind) := by
  unfold bump
  blind

macro_rules | `(tactic| blindr) => `(tactic| with_reducible exact blind_bump _)

theorem blind_bumpAny : Blind bumpAny := by
  unfold bumpAny
  blind

macro_rules | `(tactic| blindr) => `(tactic| with_reducible exact blind_bumpAny)

theorem blind_bumpRemap (kind : Kind) : Blind (bumpRemap kind) := by
  unfold bumpRemap
  blind

macro_rules | `(tactic| blindr) => `(tactic| with_reducible exact blind_bumpRemap _)

theorem blind_expect (kind : Kind) : Blind (expect kind) := by
  unfold expect
  blind

macro_rules | `(tactic| blindr) => `(tactic| with_reducible exact blind_expect _)

theorem blind_errRecover (message : String) (recovery : TokenSet) : Blind (errRecover message recovery) := by
  unfold errRecover
  blind

macro_rules | `(tactic| blindr) => `(tactic| with_reducible exact blind_errRecover _ _)

theorem blind_errAndBump (message : String) : Blind (errAndBump message) := by
  unfold errAndBump
  blind

macro_rules | `(tactic| blindr) => `(tactic| with_reducible exact blind_errAndBump _)

theorem blind_errorAndSkipUntil (message : String) (endTokens : TokenSet) :
    Blind (errorAndSkipUntil message endTokens) := by
  unfold errorAndSkipUntil
  blind

macro_rules | `(tactic| blindr) => `(tactic| with_reducible exact blind_errorAndSkipUntil _ _)

theorem blind_skipUntilBody (endTokens : TokenSet) : Blind (skipUntilBody endTokens) := by
  unfold skipUntilBody
  blind

macro_rules | `(tactic| blindr) => `(tactic| with_reducible exact blind_skipUntilBody _)

theorem blind_neither (a b : Kind) : Blind (neither a b) := by
  unfold neither
  blind

macro_rules | `(tactic| blindr) => `(tactic| with_reducible exact blind_neither _ _)

theorem blind_nameR (recovery : TokenSet) : Blind (nameR recovery) := by
  unfold nameR
  blind

macro_rules | `(tactic| blindr) => `(tactic| with_reducible exact blind_nameR _)

theorem blind_name : Blind name := by
  unfold name
  blind

macro_rules | `(tactic| blindr) => `(tactic| with_reducible exact blind_name)

theorem blind_nameRef : Blind nameRef := by
  unfold nameRef
  blind

macro_rules | `(tactic| blindr) => `(tactic| with_reducible exact blind_nameRef)

theorem blind_isPathStart : Blind isPathStart := by
  unfold isPathStart
  blind

macro_rules | `(tactic| blindr) => `(tactic| with_reducible exact blind_isPathStart)

theorem blind_pathSegment (first : Bool) : Blind (pathSegment first) := by
  unfold pathSegment
  blind

macro_rules | `(tactic| blindr) => `(tactic| with_reducible exact blind_pathSegment _)

theorem blind_path : Blind path := by
  unfold path
  blind

macro_rules | `(tactic| blindr) => `(tactic| with_reducible exact blind_path)

theorem blind_pathLoopBody (qual : Completed) : Blind (pathLoopBody qual) := by
  intro c hc s s' hs _
  by_cases hk : kind0 s.toks = COLON_COLON
  · have h : BlindIf (· = COLON_COLON) (pathLoopBody qual) := by
      unfold pathLoopBody
      refine blindIf_nth (n := 2) (.inr rfl) (q := fun k2 => k2 == STAR || k2 == L_BRACE)
        (k := fun useTree => at_ COLON_COLON >>= fun b => if (b && !useTree) = true then _ else _) ?_ fun u => ?_
      · rintro ts ts' h hk
        cases h with
        | nil => rfl
        | cons h _ _ =>
          have := h.tree hk
          simp only [kind2, Nat.reduceEqDiff, if_false]
          rw [Bool.eq_iff_iff, Bool.or_eq_true, Bool.or_eq_true, beq_iff_eq, beq_iff_eq, beq_iff_eq, beq_iff_eq]
          exact this
      · refine Blind.if ?_ _
        blind
    exact h c hc s s' hs hk
  · have hk' : kind0 s'.toks ≠ COLON_COLON := hs.toks.kind0 ▸ hk
    have e : ∀ t : TState, kind0 t.toks ≠ COLON_COLON → run tokenLevel c (pathLoopBody qual) t =
        run tokenLevel c (nth 0 >>= fun _ => at_ COLON_COLON >>= fun _ => pure ()) t := by
      intro t ht
      simp only [pathLoopBody, run_bind_eq, at_, nthAt, nth, run, tokenLevel, tNthLimited, tNth]
      by_cases hu : t.used ≤ stepLimit
      · by_cases hu2 : t.used + 1 ≤ stepLimit
        · simp [hu, hu2, Out.bind, run, ht, pure]
        · simp [hu, hu2, Out.bind]
      · simp [hu, Out.bind]
    rw [e _ hk, e _ hk']
    have h : Blind (nth 0 >>= fun _ => at_ COLON_COLON >>= fun _ => (pure () : Prog Unit)) := by blind
    exact h c hc s s' hs trivial

macro_rules | `(tactic| blindr) => `(tactic| with_reducible exact blind_pathLoopBody _)

theorem blind_refType : Blind refType := by
  unfold refType
  blind

macro_rules | `(tactic| blindr) => `(tactic| with_reducible exact blind_refType)

theorem blind_pathType : Blind pathType := by
  unfold pathType
  blind

macro_rules | `(tactic| blindr) => `(tactic| with_reducible exact blind_pathType)

theorem blind_typeBody : Blind typeBody := by
  unfold typeBody
  blind

macro_rules | `(tactic| blindr) => `(tactic| with_reducible exact blind_typeBody)

theorem blind_ascription : Blind ascription := by
  unfold ascription
  blind

macro_rules | `(tactic| blindr) => `(tactic| with_reducible exact blind_ascription)

theorem blind_typeBound : Blind typeBound := by
  unfold typeBound
  blind

macro_rules | `(tactic| blindr) => `(tactic| with_reducible exact blind_typeBound)

theorem blind_boundsLoopBody : Blind boundsLoopBody := by
  unfold boundsLoopBody
  blind

macro_rules | `(tactic| blindr) => `(tactic| with_reducible exact blind_boundsLoopBody)

theorem blind_bounds : Blind bounds := by
  unfold bounds
  blind

macro_rules | `(tactic| blindr) => `(tactic| with_reducible exact blind_bounds)

theorem blind_typeParam (m : Marker) : Blind (typeParam m) := by
  unfold typeParam
  blind

macro_rules | `(tactic| blindr) => `(tactic| with_reducible exact blind_typeParam _)

theorem blind_genericParam : Blind genericParam := by
  unfold genericParam
  blind

macro_rules | `(tactic| blindr) => `(tactic| with_reducible exact blind_genericParam)

theorem blind_genericParamLoopBody : Blind genericParamLoopBody := by
  unfold genericParamLoopBody
  blind

macro_rules | `(tactic| blindr) => `(tactic| with_reducible exact blind_genericParamLoopBody)

theorem blind_genericParamList : Blind genericParamList := by
  unfold genericParamList
  blind

macro_rules | `(tactic| blindr) => `(tactic| with_reducible exact blind_genericParamList)

theorem blind_optGenericParamList : Blind optGenericParamList := by
  unfold optGenericParamList
  blind

macro_rules | `(tactic| blindr) => `(tactic| with_reducible exact blind_optGenericParamList)

theorem blind_param (m : Marker) : Blind (param m) := by
  unfold param
  blind

macro_rules | `(tactic| blindr) => `(tactic| with_reducible exact blind_param _)

theorem blind_paramLoopBody : Blind paramLoopBody := by
  unfold paramLoopBody
  blind

macro_rules | `(tactic| blindr) => `(tactic| with_reducible exact blind_paramLoopBody)

theorem blind_paramList : Blind paramList := by
  unfold paramList
  blind

macro_rules | `(tactic| blindr) => `(tactic| with_reducible exact blind_paramList)

theorem blind_identPat : Blind identPat := by
  unfold identPat
  blind

macro_rules | `(tactic| blindr) => `(tactic| with_reducible exact blind_identPat)

theorem blind_restPat : Blind restPat := by
  unfold restPat
  blind

macro_rules | `(tactic| blindr) => `(tactic| with_reducible exact blind_restPat)

theorem blind_wildcardPat : Blind wildcardPat := by
  unfold wildcardPat
  blind

macro_rules | `(tactic| blindr) => `(tactic| with_reducible exact blind_wildcardPat)

theorem blind_tuplePatLoopBody (hasComma hasPat hasRest : Bool) : Blind (tuplePatLoopBody hasComma hasPat hasRest) := by
  unfold tuplePatLoopBody
  blind

macro_rules | `(tactic| blindr) => `(tactic| with_reducible exact blind_tuplePatLoopBody _ _ _)

theorem blind_tuplePat : Blind tuplePat := by
  unfold tuplePat
  blind

macro_rules | `(tactic| blindr) => `(tactic| with_reducible exact blind_tuplePat)

theorem blind_errorBlock (message : String) : Blind (errorBlock message) := by
  unfold errorBlock
  blind

macro_rules | `(tactic| blindr) => `(tactic| with_reducible exact blind_errorBlock _)

theorem blind_recordPatField : Blind recordPatField := by
  unfold recordPatField
  refine blind_bind blind_start fun m => blind_currentIf fun cur => ?_
  simp only
  split
  · rename_i hc
    have hc : cur = IDENT := by simpa using hc
    subst hc
    refine blindIf_nth (n := 1) (.inl rfl) (q := (· == COLON)) (k := fun b => if b = true then _ else _) ?_ fun u => ?_
    · rintro ts ts' h hk
      cases h with
      | nil => rfl
      | cons h _ _ =>
        have := h.colon (.inl hk)
        simp only [kind1, if_true]
        rw [Bool.eq_iff_iff, beq_iff_eq, beq_iff_eq]
        exact this
    · refine Blind.if ?_ _
      blind
  · exact Blind.if (by blind) _

macro_rules | `(tactic| blindr) => `(tactic| with_reducible exact blind_recordPatField)

theorem blind_recordPatEntry : Blind recordPatEntry := by
  unfold recordPatEntry
  blind

macro_rules | `(tactic| blindr) => `(tactic| with_reducible exact blind_recordPatEntry)

theorem blind_recordPatLoopBody : Blind recordPatLoopBody := by
  unfold recordPatLoopBody
  blind

macro_rules | `(tactic| blindr) => `(tactic| with_reducible exact blind_recordPatLoopBody)

theorem blind_recordPatFieldList : Blind recordPatFieldList := by
  unfold recordPatFieldList
  blind

macro_rules | `(tactic| blindr) => `(tactic| with_reducible exact blind_recordPatFieldList)

theorem blind_pathPat : Blind pathPat := by
  unfold pathPat
  blind

macro_rules | `(tactic| blindr) => `(tactic| with_reducible exact blind_pathPat)

theorem blind_patternRest (cur : Kind) : Blind (patternRest cur) := by
  unfold patternRest
  blind

macro_rules | `(tactic| blindr) => `(tactic| with_reducible exact blind_patternRest _)

theorem blind_patternBody : Blind patternBody := by
  unfold patternBody
  refine blind_currentIf fun cur => ?_
  split
  · exact Blind.if (by blind) _
  · split
    · rename_i _ hc
      have hc : cur = IDENT := by simpa using hc
      subst hc
      refine blindIf_nth (n := 1) (.inl rfl) (q := (· == L_BRACE)) (k := fun b => if b = true then _ else _) ?_ fun u => ?_
      · rintro ts ts' h hk
        cases h with
        | nil => rfl
        | cons h _ _ =>
          have := h.brace (hk)
          simp only [kind1, if_true]
          rw [Bool.eq_iff_iff, beq_iff_eq, beq_iff_eq]
          exact this
      · refine Blind.if ?_ _
        blind
    · exact Blind.if (by blind) _

macro_rules | `(tactic| blindr) => `(tactic| with_reducible exact blind_patternBody)

theorem blind_bumpAddress : Blind bumpAddress := by
  unfold bumpAddress
  refine blind_currentIf fun x => ?_
  by_cases hx : (x == IDENT) = true
  · rw [if_pos hx]; exact Blind.if (by blind) _
  · rw [if_neg hx]
    refine Blind.if (blind_currentIf fun y => ?_) _
    by_cases hy : (y == INTEGER_NUMBER) = true
    · rw [if_pos hy]
      cases eq_of_beq hy
      refine blindIf_currentText (q := fun b => if b = true then
        (do bumpRemap DIEM_ADDRESS; return true) else return false) (fun t => rfl) fun b => ?_
      blind
    · rw [if_neg hy]; exact Blind.if (by blind) _

macro_rules | `(tactic| blindr) => `(tactic| with_reducible exact blind_bumpAddress)

theorem blind_addressLit : Blind addressLit := by
  unfold addressLit
  blind

macro_rules | `(tactic| blindr) => `(tactic| with_reducible exact blind_addressLit)

theorem blind_literal : Blind literal := by
  unfold literal
  blind

macro_rules | `(tactic| blindr) => `(tactic| with_reducible exact blind_literal)

theorem blind_expr : Blind expr := by
  unfold expr
  blind

macro_rules | `(tactic| blindr) => `(tactic| with_reducible exact blind_expr)

theorem blind_parenLoopBody : Blind parenLoopBody := by
  unfold parenLoopBody
  blind

macro_rules | `(tactic| blindr) => `(tactic| with_reducible exact blind_parenLoopBody)

theorem blind_parenExpr : Blind parenExpr := by
  unfold parenExpr
  blind

macro_rules | `(tactic| blindr) => `(tactic| with_reducible exact blind_parenExpr)

theorem blind_blockLoopBody : Blind blockLoopBody := by
  unfold blockLoopBody
  blind

macro_rules | `(tactic| blindr) => `(tactic| with_reducible exact blind_blockLoopBody)

theorem blind_blockExprUnchecked : Blind blockExprUnchecked := by
  unfold blockExprUnchecked
  blind

macro_rules | `(tactic| blindr) => `(tactic| with_reducible exact blind_blockExprUnchecked)

theorem blind_blockExpr : Blind blockExpr := by
  unfold blockExpr
  blind

macro_rules | `(tactic| blindr) => `(tactic| with_reducible exact blind_blockExpr)

theorem blind_recordExprField : Blind recordExprField := by
  unfold recordExprField
  refine blind_bind blind_start fun m => blind_currentIf fun cur => ?_
  split
  · rename_i hc
    have hc : cur = IDENT ∨ cur = INTEGER_NUMBER := by simpa using hc
    refine blindIf_bind ?_ fun b => by blind
    unfold nthAt
    refine blindIf_nth (n := 1) (.inl rfl) (q := (· == COLON)) (k := fun b => pure b) ?_ fun u => Blind.if (blind_pure _) _
    rintro ts ts' h hk
    cases h with
    | nil => rfl
    | cons h _ _ =>
      have hk : _ = cur := hk
      have := h.colon (by subst hk; exact hc)
      simp only [kind1, if_true]
      rw [Bool.eq_iff_iff, beq_iff_eq, beq_iff_eq]
      exact this
  · exact Blind.if (by blind) _

macro_rules | `(tactic| blindr) => `(tactic| with_reducible exact blind_recordExprField)

theorem blind_recordExprLoopBody : Blind recordExprLoopBody := by
  unfold recordExprLoopBody
  blind

macro_rules | `(tactic| blindr) => `(tactic| with_reducible exact blind_recordExprLoopBody)

theorem blind_recordExprFieldList : Blind recordExprFieldList := by
  unfold recordExprFieldList
  blind

macro_rules | `(tactic| blindr) => `(tactic| with_reducible exact blind_recordExprFieldList)

theorem blind_pathExpr : Blind pathExpr := by
  unfold pathExpr
  blind

macro_rules | `(tactic| blindr) => `(tactic| with_reducible exact blind_pathExpr)

theorem blind_atomExpr : Blind atomExpr := by
  unfold atomExpr
  blind

macro_rules | `(tactic| blindr) => `(tactic| with_reducible exact blind_atomExpr)

theorem blind_currentOp : Blind currentOp := by
  unfold currentOp
  blind

macro_rules | `(tactic| blindr) => `(tactic| with_reducible exact blind_currentOp)

theorem blind_argLoopBody : Blind argLoopBody := by
  unfold argLoopBody
  blind

macro_rules | `(tactic| blindr) => `(tactic| with_reducible exact blind_argLoopBody)

theorem blind_argList : Blind argList := by
  unfold argList
  blind

macro_rules | `(tactic| blindr) => `(tactic| with_reducible exact blind_argList)

theorem blind_callExpr (lhs : Completed) : Blind (callExpr lhs) := by
  unfold callExpr
  blind

macro_rules | `(tactic| blindr) => `(tactic| with_reducible exact blind_callExpr _)

theorem blind_fieldExpr (lhs : Completed) : Blind (fieldExpr lhs) := by
  unfold fieldExpr
  blind

macro_rules | `(tactic| blindr) => `(tactic| with_reducible exact blind_fieldExpr _)

theorem blind_postfixLoopBody (lhs : Completed) : Blind (postfixLoopBody lhs) := by
  unfold postfixLoopBody
  blind

macro_rules | `(tactic| blindr) => `(tactic| with_reducible exact blind_postfixLoopBody _)

theorem blind_lhsExpr : Blind lhsExpr := by
  unfold lhsExpr
  blind

macro_rules | `(tactic| blindr) => `(tactic| with_reducible exact blind_lhsExpr)

theorem blind_exprBpLoopBody (bp : Nat) (lhs : Completed) : Blind (exprBpLoopBody bp lhs) := by
  unfold exprBpLoopBody
  blind

macro_rules | `(tactic| blindr) => `(tactic| with_reducible exact blind_exprBpLoopBody _ _)

theorem blind_exprBpBody (bp : Nat) : Blind (exprBpBody bp) := by
  unfold exprBpBody
  blind

macro_rules | `(tactic| blindr) => `(tactic| with_reducible exact blind_exprBpBody _)

theorem blind_semi (withSemi : StmtWithSemi) : Blind (semi withSemi) := by
  unfold semi
  blind

macro_rules | `(tactic| blindr) => `(tactic| with_reducible exact blind_semi _)

theorem blind_letStmt (m : Marker) (withSemi : StmtWithSemi) : Blind (letStmt m withSemi) := by
  unfold letStmt
  blind

macro_rules | `(tactic| blindr) => `(tactic| with_reducible exact blind_letStmt _ _)

theorem blind_stmtBody (withSemi : StmtWithSemi) : Blind (stmtBody withSemi) := by
  unfold stmtBody
  blind

macro_rules | `(tactic| blindr) => `(tactic| with_reducible exact blind_stmtBody _)

theorem blind_exprBlockLoopBody : Blind exprBlockLoopBody := by
  unfold exprBlockLoopBody
  blind

macro_rules | `(tactic| blindr) => `(tactic| with_reducible exact blind_exprBlockLoopBody)

theorem blind_recordField : Blind recordField := by
  unfold recordField
  blind

macro_rules | `(tactic| blindr) => `(tactic| with_reducible exact blind_recordField)

theorem blind_recordFieldLoopBody : Blind recordFieldLoopBody := by
  unfold recordFieldLoopBody
  blind

macro_rules | `(tactic| blindr) => `(tactic| with_reducible exact blind_recordFieldLoopBody)

theorem blind_recordFieldList : Blind recordFieldList := by
  unfold recordFieldList
  blind

macro_rules | `(tactic| blindr) => `(tactic| with_reducible exact blind_recordFieldList)

theorem blind_structDef (m : Marker) : Blind (structDef m) := by
  unfold structDef
  blind

macro_rules | `(tactic| blindr) => `(tactic| with_reducible exact blind_structDef _)

theorem blind_optRetType : Blind optRetType := by
  unfold optRetType
  blind

macro_rules | `(tactic| blindr) => `(tactic| with_reducible exact blind_optRetType)

theorem blind_functionDef (m : Marker) : Blind (functionDef m) := by
  unfold functionDef
  blind

macro_rules | `(tactic| blindr) => `(tactic| with_reducible exact blind_functionDef _)

theorem blind_optItem (m : Marker) : Blind (optItem m) := by
  unfold optItem
  blind

macro_rules | `(tactic| blindr) => `(tactic| with_reducible exact blind_optItem _)

theorem blind_item : Blind item := by
  unfold item
  blind

macro_rules | `(tactic| blindr) => `(tactic| with_reducible exact blind_item)

theorem blind_itemLoopBody : Blind itemLoopBody := by
  unfold itemLoopBody
  blind

macro_rules | `(tactic| blindr) => `(tactic| with_reducible exact blind_itemLoopBody)

theorem blind_itemList : Blind itemList := by
  unfold itemList
  blind

macro_rules | `(tactic| blindr) => `(tactic| with_reducible exact blind_itemList)

theorem blind_addressIdentR (recoveryTokens : TokenSet) : Blind (addressIdentR recoveryTokens) := by
  unfold addressIdentR
  blind

macro_rules | `(tactic| blindr) => `(tactic| with_reducible exact blind_addressIdentR _)

theorem blind_itemListOrSemi : Blind itemListOrSemi := by
  unfold itemListOrSemi
  blind

macro_rules | `(tactic| blindr) => `(tactic| with_reducible exact blind_itemListOrSemi)

/-- Behind `module` it is seen whether the token after the next is `::`. -/
theorem blind_afterModule {β : Type} {k : Bool → Prog β} (hk : ∀ b, Blind (k b)) :
    Blind (bump MODULE_KW >>= fun _ => nthAt 1 COLON_COLON >>= k) := by
  intro c hc s s' hs _
  have e : ∀ t : TState, run tokenLevel c (bump MODULE_KW >>= fun _ => nthAt 1 COLON_COLON >>= k) t =
      if t.used ≤ stepLimit then
        if kind0 t.toks = MODULE_KW then
          if t.used + 1 ≤ stepLimit then
            run tokenLevel c (k (kind1 t.toks.tail == COLON_COLON))
              { t with used := t.used + 2, toks := t.toks.tail, n := t.n + 1, items := .tok t.items MODULE_KW }
          else .panic .stuck
        else .panic (.assertion "bump")
      else .panic .stuck := by
    intro t
    simp only [bump, eat, at_, nthAt, assert, run_bind_eq, nth, run, tokenLevel, tNthLimited, tNth]
    by_cases hu : t.used ≤ stepLimit
    · by_cases hm : kind0 t.toks = MODULE_KW
      · by_cases hu2 : t.used + 1 ≤ stepLimit
        · simp [hu, hu2, Out.bind, run, hm, pure, run_bind_eq, doBump, tokenFree]
        · simp [hu, hu2, Out.bind, run, hm, pure, run_bind_eq, doBump, tokenFree]
      · simp [hu, Out.bind, run, hm, pure]
    · simp [hu, Out.bind]
  rw [e, e, hs.used, ← hs.toks.kind0]
  split
  · split
    · split
      · rename_i hm _
        have hq : (kind1 s.toks.tail == COLON_COLON) = (kind1 s'.toks.tail == COLON_COLON) := by
          have ht := hs.toks
          generalize s.toks = u at ht hm
          generalize s'.toks = u' at ht
          cases ht with
          | nil => rfl
          | cons _ h _ =>
            rw [Bool.eq_iff_iff, beq_iff_eq, beq_iff_eq]
            exact h hm
        rw [hq]
        exact hk _ c hc _ _ ⟨hs.toks.tail, rfl, by simp only [hs.n], by simp only [hs.items], hs.outer⟩ trivial
      · rfl
    · rfl
  · rfl

theorem blind_moduleDef : Blind moduleDef := by
  unfold moduleDef
  refine blind_bind blind_start fun m => blind_bind (blind_at_ _) fun b => blind_bind (blind_assert _ _) fun _ => ?_
  exact blind_afterModule fun b => by blind

macro_rules | `(tactic| blindr) => `(tactic| with_reducible exact blind_moduleDef)

theorem blind_addressItemLoopBody : Blind addressItemLoopBody := by
  unfold addressItemLoopBody
  blind

macro_rules | `(tactic| blindr) => `(tactic| with_reducible exact blind_addressItemLoopBody)

theorem blind_addressItemList : Blind addressItemList := by
  unfold addressItemList
  blind

macro_rules | `(tactic| blindr) => `(tactic| with_reducible exact blind_addressItemList)

theorem blind_addressDef : Blind addressDef := by
  unfold addressDef
  blind

macro_rules | `(tactic| blindr) => `(tactic| with_reducible exact blind_addressDef)

theorem blind_scriptDef : Blind scriptDef := by
  unfold scriptDef
  blind

macro_rules | `(tactic| blindr) => `(tactic| with_reducible exact blind_scriptDef)

theorem blind_rootLoopBody : Blind rootLoopBody := by
  unfold rootLoopBody
  blind

macro_rules | `(tactic| blindr) => `(tactic| with_reducible exact blind_rootLoopBody)

theorem blind_root : Blind root := by
  unfold root
  blind

macro_rules | `(tactic| blindr) => `(tactic| with_reducible exact blind_root)

theorem blind_body (f : Fn) : Blind (body f) := by
  cases f <;> unfold body <;> blindr

theorem alike_callN (n : Nat) : CalleeAlike (callN tokenLevel body n) := by
  induction n with
  | zero => intro f s s' _; trivial
  | succ n ih => intro f s s' h; exact blind_body f _ ih s s' h trivial

end Verif.Parser
