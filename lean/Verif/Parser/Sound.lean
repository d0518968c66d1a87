import Verif.Parser.Strict

set_option autoImplicit false

/-!
What a run without errors says about the tokens read: a calculus of postconditions for the machine
on tokens that stops at errors.
-/

namespace Verif.Parser

open Language Lexer

/-- The machine on tokens that stops at errors, and has no limit on lookups. -/
abbrev strictTok : Machine TState := tokenFree.strict

/-- The tokens are significant ones of the lexer, and what `nth 1` sees behind a token is the next
one, or a comment. -/
def Coherent : List Tok → Prop
  | [] => True
  | t :: ts => (t.kind ≠ .EOF ∧ t.kind ≠ .WILDCARD ∧ t.kind.isTrivia = false) ∧
      (t.la1 ≠ .COMMENT → t.la1 = kind0 ts) ∧ Coherent ts

theorem Coherent.append {v w : List Tok} (h : Coherent (v ++ w)) : Coherent w := by
  induction v with
  | nil => exact h
  | cons t v ih => exact ih h.2.2

theorem Coherent.nil_of_eof {w : List Tok} (h : Coherent w) (he : kind0 w = .EOF) : w = [] := by
  cases w with
  | nil => rfl
  | cons t w => exact absurd he h.1.1

/-! ### Postconditions -/

/-- The functions called only ever remove tokens from the front. -/
def Shrinks (c : (f : Fn) → TState → Out TState f.Res) : Prop :=
  ∀ f s r s', c f s = .ok r s' → ∃ v, s.toks = v ++ s'.toks

theorem run_bind {α β : Type} (c : (f : Fn) → TState → Out TState f.Res) (p : Prog α) (k : α → Prog β)
    (s : TState) : run strictTok c (p >>= k) s = (run strictTok c p s).bind fun a s' => run strictTok c (k a) s' := by
  have key : ∀ {γ : Type} (o : Out TState γ) (f : γ → TState → Out TState α) (g : γ → TState → Out TState β),
      (∀ b s, g b s = (f b s).bind fun a s' => run strictTok c (k a) s') →
      o.bind g = (o.bind f).bind fun a s' => run strictTok c (k a) s' := by
    intro γ o f g h
    cases o with
    | ok b s => exact h b s
    | panic w => rfl
    | outOfFuel => rfl
  induction p generalizing s with
  | pure a => rfl
  | panic w => rfl
  | current k ih => exact ih _ s
  | currentText k ih => exact key _ _ _ fun b s => ih b s
  | nth n k ih => exact key _ _ _ fun b s => ih b s
  | doBump kind k ih => exact key _ _ _ fun _ s => ih s
  | start k ih => exact key _ _ _ fun b s => ih b s
  | complete m kind k ih => exact key _ _ _ fun b s => ih b s
  | abandon m k ih => exact key _ _ _ fun _ s => ih s
  | precede c' k ih => exact key _ _ _ fun b s => ih b s
  | error msg k ih => exact key _ _ _ fun _ s => ih s
  | call f k ih => exact key _ _ _ fun b s => ih b s

/-- An outcome has at most removed tokens from the front. -/
def Shorter {α : Type} (o : Out TState α) (s : TState) : Prop :=
  ∀ a s', o = .ok a s' → ∃ v, s.toks = v ++ s'.toks

theorem Shorter.bind {α β : Type} {o : Out TState α} {f : α → TState → Out TState β} {s : TState}
    (h : Shorter o s) (hf : ∀ a s1, Shorter (f a s1) s1) : Shorter (o.bind f) s := by
  intro b s' e
  cases o with
  | ok a s1 =>
    obtain ⟨v1, e1⟩ := h a s1 rfl
    obtain ⟨v2, e2⟩ := hf a s1 b s' e
    exact ⟨v1 ++ v2, by rw [e1, e2, List.append_assoc]⟩
  | panic w => cases e
  | outOfFuel => cases e

theorem Shorter.same {α : Type} {o : Out TState α} {s : TState}
    (h : ∀ a s', o = .ok a s' → s'.toks = s.toks) : Shorter o s :=
  fun a s' e => ⟨[], by rw [h a s' e]; rfl⟩

theorem run_shrinks {c : (f : Fn) → TState → Out TState f.Res} (hc : Shrinks c) {α : Type} (p : Prog α)
    (s : TState) : Shorter (run strictTok c p s) s := by
  induction p generalizing s with
  | pure a => exact .same fun _ _ e => by cases e; rfl
  | panic w => exact .same fun _ _ e => by cases e
  | current k ih => exact ih _ s
  | currentText k ih =>
    exact Shorter.bind (.same fun _ _ e => by cases e; rfl) fun b s => ih b s
  | nth n k ih =>
    refine Shorter.bind (o := tNth n s) (.same fun _ _ e => ?_) fun b s => ih b s
    match n, e with
    | 0, e => cases e; rfl
    | 1, e => cases e; rfl
    | 2, e => cases e; rfl
  | doBump kind k ih =>
    refine Shorter.bind (o := strictTok.doBump kind s) (fun _ _ e => ?_) fun _ s => ih s
    cases e
    cases hs : s.toks with
    | nil => exact ⟨[], rfl⟩
    | cons t w => exact ⟨[t], rfl⟩
  | start k ih => exact Shorter.bind (.same fun _ _ e => by cases e; rfl) fun b s => ih b s
  | complete m kind k ih =>
    refine Shorter.bind (o := tComplete m kind s) (.same fun _ _ e => ?_) fun b s => ih b s
    unfold tComplete at e
    split at e <;> cases e
    rfl
  | abandon m k ih =>
    refine Shorter.bind (o := tAbandon s) (.same fun _ _ e => ?_) fun _ s => ih s
    unfold tAbandon at e
    split at e
    · split at e <;> cases e <;> rfl
    · cases e
  | precede c' k ih =>
    refine Shorter.bind (o := tPrecede s) (.same fun _ _ e => ?_) fun b s => ih b s
    unfold tPrecede at e
    split at e <;> cases e
    rfl
  | error msg k ih => exact Shorter.bind (.same fun _ _ e => by cases e) fun _ s => ih s
  | call f k ih => exact Shorter.bind (fun a s' e => hc f s a s' e) fun b s => ih b s

theorem callN_shrinks (n : Nat) : Shrinks (callN strictTok body n) := by
  induction n with
  | zero => intro f s r s' e; cases e
  | succ n ih => exact fun f s => run_shrinks ih (body f) s

/-- If `p`, started in `s`, ends without an error, `Q` holds at the end. -/
def Sd (c : (f : Fn) → TState → Out TState f.Res) {α : Type} (p : Prog α) (s : TState)
    (Q : α → TState → Prop) : Prop :=
  Coherent s.toks → ∀ a s', run strictTok c p s = .ok a s' → Q a s'

/-- The open nodes are `o` at the end, and `P` holds of the result, the tokens left and the trees. -/
def Ret {α : Type} (o : List (Forest × Forest)) (P : α → List Tok → Forest → Prop) (a : α) (s : TState) :
    Prop :=
  s.outer = o ∧ P a s.toks s.items

/-- The same, or the input is at its end. -/
def Fin {α : Type} (o : List (Forest × Forest)) (P : α → List Tok → Forest → Prop) (a : α) (s : TState) :
    Prop :=
  s.toks = [] ∨ Ret o P a s

section
variable {c : (f : Fn) → TState → Out TState f.Res} {α β : Type} {w : List Tok} {u n : Nat}
  {i pre j : Forest} {o o' : List (Forest × Forest)} {Q : α → TState → Prop} {k : Kind}
  {t : Text} {l1 l2 : Kind}

theorem sd_mono {p : Prog α} {s : TState} {Q' : α → TState → Prop} (h : Sd c p s Q')
    (hq : ∀ a s', Q' a s' → Q a s') : Sd c p s Q :=
  fun hw a s' e => hq a s' (h hw a s' e)

theorem sd_coherent {p : Prog α} {s : TState} (h : Coherent s.toks → Sd c p s Q) : Sd c p s Q :=
  fun hw => h hw hw

theorem sd_bind (hc : Shrinks c) {p : Prog β} {f : β → Prog α} {s : TState}
    (h : Sd c p s fun b s1 => Sd c (f b) s1 Q) : Sd c (p >>= f) s Q := by
  intro hw a s' e
  rw [run_bind] at e
  cases hp : run strictTok c p s with
  | ok b s1 =>
    rw [hp] at e
    obtain ⟨v, hv⟩ := run_shrinks hc p s b s1 hp
    exact h hw b s1 hp (Coherent.append (hv ▸ hw)) a s' e
  | panic w => rw [hp] at e; cases e
  | outOfFuel => rw [hp] at e; cases e

theorem sd_seq (hc : Shrinks c) {p : Prog β} {f : β → Prog α} {s : TState}
    {P : β → List Tok → Forest → Prop} (h : Sd c p s (Ret o P))
    (hk : ∀ b w' u' n' i', P b w' i' → Sd c (f b) ⟨w', u', n', i', o⟩ Q) : Sd c (p >>= f) s Q := by
  refine sd_bind hc (sd_mono h ?_)
  rintro b ⟨w', u', n', i', _⟩ ⟨rfl, hp⟩
  exact hk b w' u' n' i' hp

/-- As `sd_seq`, if the input may be at its end, where what follows fails. -/
theorem sd_seq_cut (hc : Shrinks c) {p : Prog β} {f : β → Prog α} {s : TState}
    {P : β → List Tok → Forest → Prop} (h : Sd c p s (Fin o P))
    (hnil : ∀ b u' n' i' o', Sd c (f b) ⟨[], u', n', i', o'⟩ Q)
    (hk : ∀ b w' u' n' i', P b w' i' → Sd c (f b) ⟨w', u', n', i', o⟩ Q) : Sd c (p >>= f) s Q := by
  refine sd_bind hc (sd_mono h ?_)
  rintro b ⟨w', u', n', i', o'⟩ (hn | ⟨ho, hp⟩)
  · cases hn
    exact hnil b u' n' i' o'
  · cases ho
    exact hk b w' u' n' i' hp

theorem sd_at_end (hc : Shrinks c) {p : Prog α} {P : α → List Tok → Forest → Prop} :
    Sd c p ⟨[], u, n, i, o⟩ (Fin o' P) := by
  intro hw a s' e
  obtain ⟨v, hv⟩ := run_shrinks hc p _ a s' e
  exact .inl (List.append_eq_nil_iff.1 hv.symm).2

theorem sd_seq_fin (hc : Shrinks c) {p : Prog β} {f : β → Prog α} {s : TState}
    {P : β → List Tok → Forest → Prop} {P' : α → List Tok → Forest → Prop} (h : Sd c p s (Fin o P))
    (hk : ∀ b w' u' n' i', P b w' i' → Sd c (f b) ⟨w', u', n', i', o⟩ (Fin o' P')) :
    Sd c (p >>= f) s (Fin o' P') :=
  sd_seq_cut hc h (fun _ _ _ _ _ => sd_at_end hc) hk

theorem sd_fin {p : Prog α} {s : TState} {P : α → List Tok → Forest → Prop} (h : Sd c p s (Ret o P)) :
    Sd c p s (Fin o P) :=
  sd_mono h fun _ _ => .inr

/-! ### The operations -/

theorem sd_pure (a : α) (s : TState) (h : Q a s) : Sd c (pure a) s Q := by
  intro _ b s' e
  cases e
  exact h

theorem sd_pure_eq (a : α) (s : TState) : Sd c (pure a) s Q = (Coherent s.toks → Q a s) := by
  refine propext ⟨fun h hw => h hw a s rfl, fun h hw => sd_pure a s (h hw) hw⟩

theorem sd_at_eq (f : Bool → Prog α) :
    Sd c (at_ k >>= f) ⟨w, u, n, i, o⟩ Q = Sd c (f (kind0 w == k)) ⟨w, u + 1, n, i, o⟩ Q := rfl

theorem sd_nthAt1 (f : Bool → Prog α) :
    Sd c (nthAt 1 k >>= f) ⟨w, u, n, i, o⟩ Q = Sd c (f (kind1 w == k)) ⟨w, u + 1, n, i, o⟩ Q := rfl

theorem sd_nth0 (f : Kind → Prog α) :
    Sd c (nth 0 >>= f) ⟨w, u, n, i, o⟩ Q = Sd c (f (kind0 w)) ⟨w, u + 1, n, i, o⟩ Q := rfl

theorem sd_nth1 (f : Kind → Prog α) :
    Sd c (nth 1 >>= f) ⟨w, u, n, i, o⟩ Q = Sd c (f (kind1 w)) ⟨w, u + 1, n, i, o⟩ Q := rfl

theorem sd_nth2 (f : Kind → Prog α) :
    Sd c (nth 2 >>= f) ⟨w, u, n, i, o⟩ Q = Sd c (f (kind2 w)) ⟨w, u + 1, n, i, o⟩ Q := rfl

theorem sd_current (f : Kind → Prog α) :
    Sd c (current >>= f) ⟨w, u, n, i, o⟩ Q = Sd c (f (kind0 w)) ⟨w, u, n, i, o⟩ Q := rfl

theorem sd_currentText (f : Text → Prog α) :
    Sd c (currentText >>= f) ⟨w, u, n, i, o⟩ Q = Sd c (f (text0 w)) ⟨w, u, n, i, o⟩ Q := rfl

theorem sd_isPathStart (f : Bool → Prog α) :
    Sd c (isPathStart >>= f) ⟨w, u, n, i, o⟩ Q = Sd c (f (kind0 w == .IDENT)) ⟨w, u, n, i, o⟩ Q := rfl

theorem sd_atTs (ts : TokenSet) (f : Bool → Prog α) :
    Sd c (atTs ts >>= f) ⟨w, u, n, i, o⟩ Q = Sd c (f (ts.contains (kind0 w))) ⟨w, u, n, i, o⟩ Q := rfl

theorem sd_start (f : Marker → Prog α) :
    Sd c (start >>= f) ⟨w, u, n, i, o⟩ Q = Sd c (f ⟨n⟩) ⟨w, u, n + 1, .nil, (.nil, i) :: o⟩ Q := rfl

theorem sd_complete (m : Marker) (f : Completed → Prog α) :
    Sd c (m.complete k >>= f) ⟨w, u, n, i, (pre, j) :: o⟩ Q =
      Sd c (f ⟨m.pos, n, k⟩) ⟨w, u, n + 1, .node j k pre i, o⟩ Q := rfl

theorem sd_complete' (m : Marker) {Q : Completed → TState → Prop} :
    Sd c (m.complete k) ⟨w, u, n, i, (pre, j) :: o⟩ Q =
      (Coherent w → Q ⟨m.pos, n, k⟩ ⟨w, u, n + 1, .node j k pre i, o⟩) := by
  rw [show m.complete k = (m.complete k >>= fun c => pure c) from rfl, sd_complete, sd_pure_eq]

theorem sd_precede (cm : Completed) {k0 : Forest} (f : Marker → Prog α) :
    Sd c (cm.precede >>= f) ⟨w, u, n, .node j k pre k0, o⟩ Q =
      Sd c (f ⟨n⟩) ⟨w, u, n + 1, .nil, (.node .nil k pre k0, j) :: o⟩ Q := rfl

theorem sd_abandon (m : Marker) (f : Unit → Prog α) :
    Sd c (m.abandon >>= f) ⟨w, u, n, .nil, (pre, j) :: o⟩ Q = Sd c (f ()) ⟨w, u, n - 1, j, o⟩ Q := rfl

theorem sd_error (msg : String) (f : Unit → Prog α) (s : TState) : Sd c (error msg >>= f) s Q :=
  fun _ a s' e => by cases e

theorem sd_error' (msg : String) (s : TState) {Q : Unit → TState → Prop} : Sd c (error msg) s Q :=
  fun _ a s' e => by cases e

theorem sd_errRecover (msg : String) (ts : TokenSet) (f : Unit → Prog α) (s : TState) (hc : Shrinks c) :
    Sd c (errRecover msg ts >>= f) s Q := by
  refine sd_bind hc ?_
  unfold errRecover
  intro _ a s' e
  have e' : run strictTok c (do
      if kind0 s.toks == .L_BRACE || kind0 s.toks == .R_BRACE then
        error msg
        return ()
      if ← atTs ts then
        error msg
        return ()
      let m ← start
      error msg
      bumpAny
      let _ ← m.complete .ERROR) s = .ok a s' := e
  split at e'
  · cases e'
  · have e'' : run strictTok c (do
        if ts.contains (kind0 s.toks) then
          error msg
          return ()
        let m ← start
        error msg
        bumpAny
        let _ ← m.complete .ERROR) s = .ok a s' := e'
    split at e'' <;> cases e''

theorem sd_errRecover' (msg : String) (ts : TokenSet) (s : TState) (hc : Shrinks c)
    {Q : Unit → TState → Prop} : Sd c (errRecover msg ts) s Q := by
  rw [← bind_pure_prog (errRecover msg ts)]
  exact sd_errRecover msg ts _ s hc

theorem sd_errorAndSkipUntil (msg : String) (ts : TokenSet) (f : Completed → Prog α) (s : TState) :
    Sd c (errorAndSkipUntil msg ts >>= f) s Q :=
  fun _ a s' e => by cases e

theorem sd_assert {b : Bool} (msg : String) (f : Unit → Prog α) (s : TState)
    (h : b = true → Sd c (f ()) s Q) : Sd c (assert b msg >>= f) s Q := by
  cases b with
  | true => exact h rfl
  | false => exact fun _ a s' e => by cases e

/-! ### Reading one token -/

theorem cons_of_kind0 (h : kind0 w = k) (hk : k ≠ .EOF) : ∃ t l1 l2 w', w = ⟨k, t, l1, l2⟩ :: w' := by
  cases w with
  | nil => exact absurd h.symm hk
  | cons x w' =>
    obtain ⟨k', t, l1, l2⟩ := x
    cases h
    exact ⟨t, l1, l2, w', rfl⟩

theorem sd_at (f : Bool → Prog α)
    (h1 : ∀ u', kind0 w = k → Sd c (f true) ⟨w, u', n, i, o⟩ Q)
    (h2 : ∀ u', kind0 w ≠ k → Sd c (f false) ⟨w, u', n, i, o⟩ Q) :
    Sd c (at_ k >>= f) ⟨w, u, n, i, o⟩ Q := by
  rw [sd_at_eq]
  by_cases h : kind0 w = k
  · rw [show (kind0 w == k) = true by simpa using h]; exact h1 _ h
  · rw [show (kind0 w == k) = false by simpa using h]; exact h2 _ h

theorem sd_eat (f : Bool → Prog α) (hk : k ≠ .EOF)
    (h1 : ∀ t l1 l2 w' u' n', w = ⟨k, t, l1, l2⟩ :: w' → Sd c (f true) ⟨w', u', n', .tok i k, o⟩ Q)
    (h2 : ∀ u', kind0 w ≠ k → Sd c (f false) ⟨w, u', n, i, o⟩ Q) :
    Sd c (eat k >>= f) ⟨w, u, n, i, o⟩ Q := by
  unfold eat
  rw [bind_assoc_prog]
  refine sd_at _ (fun u' h => ?_) (fun u' h => ?_)
  · obtain ⟨t, l1, l2, w', rfl⟩ := cons_of_kind0 h hk
    exact sd_coherent fun hw => by
      intro hw' a s' e
      exact h1 t l1 l2 w' u' (n + 1) rfl hw.2.2 a s' e
  · exact h2 u' h

theorem sd_eat_no (f : Bool → Prog α) (h : kind0 w ≠ k) :
    Sd c (eat k >>= f) ⟨w, u, n, i, o⟩ Q = Sd c (f false) ⟨w, u + 1, n, i, o⟩ Q := by
  have : (kind0 w == k) = false := by simpa using h
  simp only [eat, bind_assoc_prog, sd_at_eq, this, Bool.not_false, if_true, pure_bind_prog]

theorem sd_expect (f : Bool → Prog α) (hk : k ≠ .EOF)
    (h1 : ∀ t l1 l2 w' u' n', w = ⟨k, t, l1, l2⟩ :: w' → Sd c (f true) ⟨w', u', n', .tok i k, o⟩ Q) :
    Sd c (expect k >>= f) ⟨w, u, n, i, o⟩ Q := by
  unfold expect
  rw [bind_assoc_prog]
  refine sd_eat _ hk h1 fun u' _ => ?_
  simp only [Bool.false_eq_true, if_false, bind_assoc_prog]
  exact sd_error _ _ _

theorem sd_bump (f : Unit → Prog α) (hk : k ≠ .EOF)
    (h1 : ∀ t l1 l2 w' u' n', w = ⟨k, t, l1, l2⟩ :: w' → Sd c (f ()) ⟨w', u', n', .tok i k, o⟩ Q) :
    Sd c (bump k >>= f) ⟨w, u, n, i, o⟩ Q := by
  unfold bump
  rw [bind_assoc_prog]
  refine sd_eat _ hk (fun t l1 l2 w' u' n' e => h1 t l1 l2 w' u' n' e) fun u' _ => ?_
  exact sd_assert _ _ _ fun h => by cases h

theorem sd_call {f : Fn} {s : TState} {Q' : f.Res → TState → Prop} (h : Coherent s.toks → ∀ r s', c f s = .ok r s' → Q' r s') :
    Sd c (call f) s Q' := by
  intro hw r s' e
  refine h hw r s' ?_
  have e' : (c f s).bind (fun r s' => .ok r s') = .ok r s' := e
  cases hcf : c f s with
  | ok a b => rw [hcf] at e'; exact e'
  | panic w => rw [hcf] at e'; cases e'
  | outOfFuel => rw [hcf] at e'; cases e'

end

/-! ### Derivations -/

/-- The tokens `v` are an instance of `syms` in the lenient language. -/
def Der (syms : List Sym) (v : List Tok) (sh : List Shape) : Prop :=
  DerivesBy Lenient syms (v.map Tok.pair) sh

theorem Der.nil : Der [] [] [] := DerivesBy.nil

theorem Der.append {a b : List Sym} {v w : List Tok} {sh sh' : List Shape} (h1 : Der a v sh)
    (h2 : Der b w sh') : Der (a ++ b) (v ++ w) (sh ++ sh') := by
  unfold Der
  rw [List.map_append]
  exact DerivesBy.append h1 h2

theorem Der.one (k : Kind) (t : Text) (l1 l2 : Kind) : Der [.tok k] [⟨k, t, l1, l2⟩] [.leaf k] :=
  DerivesBy.tok .nil

theorem Der.rule {x : NT} {k : Option Kind} {rhs : List Sym} {v : List Tok} {sh : List Shape}
    (r : Lenient x k rhs) (h : Der rhs v sh) : Der [.nt x] v (wrap k sh) := by
  have := DerivesBy.nt r h .nil
  rwa [List.append_nil, List.append_nil] at this

/-- From the tokens `w`, an instance of `syms` was read up to `w'`; its trees were added. -/
def Took (syms : List Sym) (w : List Tok) (i : Forest) (w' : List Tok) (i' : Forest) : Prop :=
  ∃ v sh, w = v ++ w' ∧ Der syms v sh ∧ i'.shape = i.shape ++ sh

section
variable {w w' w'' : List Tok} {i i' i'' : Forest} {a b rhs : List Sym} {x : NT} {k : Kind}

theorem Took.refl (w : List Tok) (i : Forest) : Took [] w i w i :=
  ⟨[], [], rfl, .nil, (List.append_nil _).symm⟩

theorem Took.trans (h1 : Took a w i w' i') (h2 : Took b w' i' w'' i'') : Took (a ++ b) w i w'' i'' := by
  obtain ⟨v1, sh1, rfl, d1, e1⟩ := h1
  obtain ⟨v2, sh2, rfl, d2, e2⟩ := h2
  exact ⟨v1 ++ v2, sh1 ++ sh2, (List.append_assoc ..).symm, d1.append d2, by rw [e2, e1, List.append_assoc]⟩

theorem Took.tok (t : Text) (l1 l2 : Kind) (i : Forest) (hk : k.isTrivia = false) :
    Took [.tok k] (⟨k, t, l1, l2⟩ :: w) i w (.tok i k) :=
  ⟨[_], [.leaf k], rfl, .one k t l1 l2, by simp only [Forest.shape, hk, Bool.false_eq_true, if_false]⟩

/-- The rule adds no node. -/
theorem Took.flat (r : Lenient x none rhs) (h : Took rhs w i w' i') : Took [.nt x] w i w' i' := by
  obtain ⟨v, sh, e, d, hs⟩ := h
  exact ⟨v, sh, e, d.rule r, hs⟩

/-- The rule adds a node. -/
theorem Took.node (r : Lenient x (some k) rhs) (h : Took rhs w .nil w' i') :
    Took [.nt x] w i w' (.node i k .nil i') := by
  obtain ⟨v, sh, e, d, hs⟩ := h
  refine ⟨v, [.node k sh], e, d.rule r, ?_⟩
  simp only [Forest.shape, hs, List.nil_append]

end

end Verif.Parser
