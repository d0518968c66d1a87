import Verif.Parser.SoundTop

set_option autoImplicit false

/-!
Where a run stops at its first error: a calculus for what has been read by then.
-/

namespace Verif.Parser

open Language Lexer

/-- `P` holds of the result, and there is one. -/
def Out.Then {α : Type} (o : Out TState α) (P : α → TState → Prop) : Prop :=
  match o with
  | .ok a s => P a s
  | .panic _ => False
  | .outOfFuel => False

/-- The program `p`, started in `s`, meets its first error in the state `t`.  `c` runs the functions
that `p` calls, `e` says where they meet their first errors. -/
def halts (c : (f : Fn) → TState → Out TState f.Res) (e : Fn → TState → TState → Prop) {α : Type} :
    Prog α → TState → TState → Prop
  | .pure _, _, _ => False
  | .panic _, _, _ => False
  | .current k, s, t => halts c e (k (strictTok.current s)) s t
  | .currentText k, s, t => (strictTok.currentText s).Then fun x s' => halts c e (k x) s' t
  | .nth n k, s, t => (strictTok.nth n s).Then fun x s' => halts c e (k x) s' t
  | .doBump kind k, s, t => (strictTok.doBump kind s).Then fun _ s' => halts c e k s' t
  | .start k, s, t => (strictTok.start s).Then fun m s' => halts c e (k m) s' t
  | .complete m kind k, s, t => (strictTok.complete m kind s).Then fun r s' => halts c e (k r) s' t
  | .abandon m k, s, t => (strictTok.abandon m s).Then fun _ s' => halts c e k s' t
  | .precede cm k, s, t => (strictTok.precede cm s).Then fun m s' => halts c e (k m) s' t
  | .error _ _, s, t => t = s
  | .call f k, s, t => e f s t ∨ (c f s).Then fun r s' => halts c e (k r) s' t

/-- Where the functions of the grammar, with calls nested at most `n` deep, meet their first errors. -/
def haltsN : Nat → Fn → TState → TState → Prop
  | 0, _, _, _ => False
  | n + 1, f, s, t => halts (callN strictTok body n) (haltsN n) (body f) s t

theorem Out.Then.bind {α β : Type} {o : Out TState α} {f : α → TState → Out TState β} {P : β → TState → Prop} :
    (o.bind f).Then P ↔ o.Then fun a s => (f a s).Then P := by
  cases o <;> exact Iff.rfl

theorem Out.Then.or {α : Type} {o : Out TState α} {P : α → TState → Prop} {A : Prop} {Q : α → TState → Prop}
    (h : o.Then P) (hp : ∀ a s, P a s → A ∨ Q a s) : A ∨ o.Then Q := by
  cases o with
  | ok a s => exact hp a s h
  | panic w => exact absurd h id
  | outOfFuel => exact absurd h id

section
variable {c : (f : Fn) → TState → Out TState f.Res} {e : Fn → TState → TState → Prop}

theorem Out.Then.ok {α : Type} {o : Out TState α} {P : α → TState → Prop} (h : o.Then P) :
    ∃ a s, o = .ok a s ∧ P a s := by
  cases o with
  | ok a s => exact ⟨a, s, rfl, h⟩
  | panic w => exact absurd h id
  | outOfFuel => exact absurd h id

theorem Out.Then.of {α : Type} {o : Out TState α} {P : α → TState → Prop} {a : α} {s : TState}
    (h : o = .ok a s) (hp : P a s) : o.Then P := by
  subst h; exact hp

/-- A sequence meets its first error in its first part or, if that has none, in the second. -/
theorem halts_bind {α β : Type} (p : Prog α) (k : α → Prog β) (s t : TState)
    (h : halts c e (p >>= k) s t) :
    halts c e p s t ∨ (run strictTok c p s).Then fun a s' => halts c e (k a) s' t := by
  have key : ∀ {γ : Type} (o : Out TState γ) (F : γ → TState → Prop) (G : γ → TState → Prop)
      (g : γ → TState → Out TState α),
      (∀ b s, F b s → G b s ∨ (g b s).Then fun a s' => halts c e (k a) s' t) →
      o.Then F → o.Then G ∨ (o.bind g).Then fun a s' => halts c e (k a) s' t := by
    intro γ o F G g hb ho
    cases o with
    | ok b s => exact hb b s ho
    | panic w => exact absurd ho id
    | outOfFuel => exact absurd ho id
  induction p generalizing s with
  | pure a => exact .inr h
  | panic w => exact absurd h id
  | current k' ih => exact ih _ s h
  | currentText k' ih => exact key _ _ _ _ (fun b s hb => ih b s hb) h
  | nth n k' ih => exact key _ _ _ _ (fun b s hb => ih b s hb) h
  | doBump kind k' ih => exact key _ _ _ _ (fun _ s hb => ih s hb) h
  | start k' ih => exact key _ _ _ _ (fun b s hb => ih b s hb) h
  | complete m kind k' ih => exact key _ _ _ _ (fun b s hb => ih b s hb) h
  | abandon m k' ih => exact key _ _ _ _ (fun _ s hb => ih s hb) h
  | precede cm k' ih => exact key _ _ _ _ (fun b s hb => ih b s hb) h
  | error msg k' ih => exact .inl h
  | call f k' ih =>
    rcases h with h | h
    · exact .inl (.inl h)
    · rcases key _ _ _ _ (fun b s hb => ih b s hb) h with h | h
      · exact .inl (.inr h)
      · exact .inr h

/-- The functions called have only removed tokens from the front when they meet an error. -/
def Cuts (e : Fn → TState → TState → Prop) : Prop :=
  ∀ f s t, e f s t → ∃ v, s.toks = v ++ t.toks

theorem halts_cuts (hc : Shrinks c) (he : Cuts e) {α : Type} (p : Prog α) (s t : TState)
    (h : halts c e p s t) : ∃ v, s.toks = v ++ t.toks := by
  induction p generalizing s with
  | pure a => exact absurd h id
  | panic w => exact absurd h id
  | current k ih => exact ih _ s h
  | currentText k ih => exact ih _ _ h
  | nth n k ih =>
    obtain ⟨a, s', e, h⟩ := Out.Then.ok h
    obtain ⟨v, hv⟩ := ih _ _ h
    match n, e with
    | 0, e => cases e; exact ⟨v, hv⟩
    | 1, e => cases e; exact ⟨v, hv⟩
    | 2, e => cases e; exact ⟨v, hv⟩
  | doBump kind k ih =>
    obtain ⟨v, hv⟩ := ih _ h
    have hv : s.toks.tail = v ++ t.toks := hv
    cases hs : s.toks with
    | nil =>
      rw [hs] at hv
      exact ⟨v, hv⟩
    | cons x w =>
      rw [hs] at hv
      exact ⟨x :: v, by rw [List.cons_append, ← hv]; rfl⟩
  | start k ih =>
    obtain ⟨v, hv⟩ := ih _ _ h
    exact ⟨v, hv⟩
  | complete m kind k ih =>
    obtain ⟨a, s', e, h⟩ := Out.Then.ok h
    obtain ⟨v, hv⟩ := ih _ _ h
    have e : tComplete m kind s = .ok a s' := e
    unfold tComplete at e
    split at e <;> cases e
    exact ⟨v, hv⟩
  | abandon m k ih =>
    obtain ⟨a, s', e, h⟩ := Out.Then.ok h
    obtain ⟨v, hv⟩ := ih _ h
    have e : tAbandon s = .ok a s' := e
    unfold tAbandon at e
    split at e
    · split at e <;> cases e <;> exact ⟨v, hv⟩
    · cases e
  | precede cm k ih =>
    obtain ⟨a, s', e, h⟩ := Out.Then.ok h
    obtain ⟨v, hv⟩ := ih _ _ h
    have e : tPrecede s = .ok a s' := e
    unfold tPrecede at e
    split at e <;> cases e
    exact ⟨v, hv⟩
  | error msg k ih => cases h; exact ⟨[], rfl⟩
  | call f k ih =>
    rcases h with h | h
    · exact he f s t h
    · obtain ⟨a, s', e, h⟩ := Out.Then.ok h
      obtain ⟨v, hv⟩ := ih _ _ h
      obtain ⟨v1, hv1⟩ := hc f s a s' e
      exact ⟨v1 ++ v, by rw [hv1, hv, List.append_assoc]⟩

theorem haltsN_cuts (n : Nat) : Cuts (haltsN n) := by
  induction n with
  | zero => intro f s t h; exact absurd h id
  | succ n ih => exact fun f s t h => halts_cuts (callN_shrinks n) ih (body f) s t h

end

/-- If `p`, started in `s`, meets an error, `V` holds of the tokens that are left then.  With `F`, it
also holds if `p` ends without an error and no tokens are left. -/
def Ve (c : (f : Fn) → TState → Out TState f.Res) (e : Fn → TState → TState → Prop) {α : Type} (p : Prog α)
    (s : TState) (V : List Tok → Prop) (F : Prop) : Prop :=
  Coherent s.toks → (∀ t, halts c e p s t → V t.toks) ∧
    (F → ∀ a s', run strictTok c p s = .ok a s' → s'.toks = [] → V [])

section
variable {c : (f : Fn) → TState → Out TState f.Res} {e : Fn → TState → TState → Prop} {α β : Type}
  {w : List Tok} {u n : Nat} {i pre j : Forest} {o o' : List (Forest × Forest)} {V V' : List Tok → Prop}
  {F F' : Prop} {k : Kind} {t : Text} {l1 l2 : Kind}

theorem ve_mono {p : Prog α} {s : TState} (h : Ve c e p s V' F') (hF : F → F') (hV : ∀ w', V' w' → V w') :
    Ve c e p s V F :=
  fun hw => ⟨fun t ht => hV _ ((h hw).1 t ht), fun hf a s' er hn => hV _ ((h hw).2 (hF hf) a s' er hn)⟩

theorem ve_coherent {p : Prog α} {s : TState} (h : Coherent s.toks → Ve c e p s V F) : Ve c e p s V F :=
  fun hw => h hw hw

/-- A sequence: what the first part is, where it stops, and where the second part stops. -/
theorem ve_seq (hc : Shrinks c) {p : Prog β} {f : β → Prog α} {s : TState}
    {P : β → List Tok → Forest → Prop} (hs : Sd c p s (Ret o P)) (hp : Ve c e p s V False)
    (hk : ∀ b w' u' n' i', P b w' i' → Ve c e (f b) ⟨w', u', n', i', o⟩ V F) : Ve c e (p >>= f) s V F := by
  intro hw
  have next : ∀ b s1, run strictTok c p s = .ok b s1 → Ve c e (f b) s1 V F ∧ Coherent s1.toks := by
    intro b s1 er
    obtain ⟨ho, hP⟩ := hs hw b s1 er
    obtain ⟨v, hv⟩ := run_shrinks hc p s b s1 er
    obtain ⟨w', u', n', i', o'⟩ := s1
    cases ho
    exact ⟨hk b w' u' n' i' hP, Coherent.append (hv ▸ hw)⟩
  refine ⟨fun t ht => ?_, fun hf a s' er hn => ?_⟩
  · rcases halts_bind p f s t ht with h | h
    · exact (hp hw).1 t h
    · obtain ⟨b, s1, er, h⟩ := h.ok
      obtain ⟨h1, h2⟩ := next b s1 er
      exact (h1 h2).1 t h
  · rw [run_bind] at er
    cases hr : run strictTok c p s with
    | ok b s1 =>
      rw [hr] at er
      obtain ⟨h1, h2⟩ := next b s1 hr
      exact (h1 h2).2 hf a s' er hn
    | panic x => rw [hr] at er; cases er
    | outOfFuel => rw [hr] at er; cases er

/-- The same, if the input may be at its end after the first part. -/
theorem ve_seq_fin (hc : Shrinks c) (he : Cuts e) {p : Prog β} {f : β → Prog α} {s : TState}
    {P : β → List Tok → Forest → Prop} (hs : Sd c p s (Fin o P)) (hp : Ve c e p s V True)
    (hk : ∀ b w' u' n' i', P b w' i' → Ve c e (f b) ⟨w', u', n', i', o⟩ V F) : Ve c e (p >>= f) s V F := by
  intro hw
  have next : ∀ b s1, run strictTok c p s = .ok b s1 → Ve c e (f b) s1 V F ∧ Coherent s1.toks := by
    intro b s1 er
    obtain ⟨v, hv⟩ := run_shrinks hc p s b s1 er
    refine ⟨?_, Coherent.append (hv ▸ hw)⟩
    rcases hs hw b s1 er with hn | ⟨ho, hP⟩
    · have hV : V [] := (hp hw).2 trivial b s1 er hn
      refine fun _ => ⟨fun t ht => ?_, fun _ _ _ _ _ => hV⟩
      obtain ⟨v', hv'⟩ := halts_cuts hc he (f b) s1 t ht
      rw [hn] at hv'
      rw [(List.append_eq_nil_iff.1 hv'.symm).2]
      exact hV
    · obtain ⟨w', u', n', i', o'⟩ := s1
      cases ho
      exact hk b w' u' n' i' hP
  refine ⟨fun t ht => ?_, fun hf a s' er hn => ?_⟩
  · rcases halts_bind p f s t ht with h | h
    · exact (hp hw).1 t h
    · obtain ⟨b, s1, er, h⟩ := h.ok
      obtain ⟨h1, h2⟩ := next b s1 er
      exact (h1 h2).1 t h
  · rw [run_bind] at er
    cases hr : run strictTok c p s with
    | ok b s1 =>
      rw [hr] at er
      obtain ⟨h1, h2⟩ := next b s1 hr
      exact (h1 h2).2 hf a s' er hn
    | panic x => rw [hr] at er; cases er
    | outOfFuel => rw [hr] at er; cases er

/-! ### The operations -/

theorem ve_pure (a : α) (s : TState) (h : F → V s.toks) : Ve c e (pure a) s V F := by
  refine fun _ => ⟨fun t ht => absurd ht id, fun hf b s' er hn => ?_⟩
  cases er
  rw [← hn]
  exact h hf

theorem ve_pure_nil (a : α) (s : TState) (h : F → s.toks = [] → V []) : Ve c e (pure a) s V F := by
  refine fun _ => ⟨fun t ht => absurd ht id, fun hf b s' er hn => ?_⟩
  cases er
  exact h hf hn

theorem ve_at_eq (f : Bool → Prog α) :
    Ve c e (at_ k >>= f) ⟨w, u, n, i, o⟩ V F = Ve c e (f (kind0 w == k)) ⟨w, u + 1, n, i, o⟩ V F := rfl

theorem ve_nthAt1 (f : Bool → Prog α) :
    Ve c e (nthAt 1 k >>= f) ⟨w, u, n, i, o⟩ V F = Ve c e (f (kind1 w == k)) ⟨w, u + 1, n, i, o⟩ V F := rfl

theorem ve_nth0 (f : Kind → Prog α) :
    Ve c e (nth 0 >>= f) ⟨w, u, n, i, o⟩ V F = Ve c e (f (kind0 w)) ⟨w, u + 1, n, i, o⟩ V F := rfl

theorem ve_nth1 (f : Kind → Prog α) :
    Ve c e (nth 1 >>= f) ⟨w, u, n, i, o⟩ V F = Ve c e (f (kind1 w)) ⟨w, u + 1, n, i, o⟩ V F := rfl

theorem ve_nth2 (f : Kind → Prog α) :
    Ve c e (nth 2 >>= f) ⟨w, u, n, i, o⟩ V F = Ve c e (f (kind2 w)) ⟨w, u + 1, n, i, o⟩ V F := rfl

theorem ve_current (f : Kind → Prog α) :
    Ve c e (current >>= f) ⟨w, u, n, i, o⟩ V F = Ve c e (f (kind0 w)) ⟨w, u, n, i, o⟩ V F := rfl

theorem ve_currentText (f : Text → Prog α) :
    Ve c e (currentText >>= f) ⟨w, u, n, i, o⟩ V F = Ve c e (f (text0 w)) ⟨w, u, n, i, o⟩ V F := rfl

theorem ve_isPathStart (f : Bool → Prog α) :
    Ve c e (isPathStart >>= f) ⟨w, u, n, i, o⟩ V F = Ve c e (f (kind0 w == .IDENT)) ⟨w, u, n, i, o⟩ V F := rfl

theorem ve_atTs (ts : TokenSet) (f : Bool → Prog α) :
    Ve c e (atTs ts >>= f) ⟨w, u, n, i, o⟩ V F = Ve c e (f (ts.contains (kind0 w))) ⟨w, u, n, i, o⟩ V F := rfl

theorem ve_start (f : Marker → Prog α) :
    Ve c e (start >>= f) ⟨w, u, n, i, o⟩ V F = Ve c e (f ⟨n⟩) ⟨w, u, n + 1, .nil, (.nil, i) :: o⟩ V F := rfl

theorem ve_complete (m : Marker) (f : Completed → Prog α) :
    Ve c e (m.complete k >>= f) ⟨w, u, n, i, (pre, j) :: o⟩ V F =
      Ve c e (f ⟨m.pos, n, k⟩) ⟨w, u, n + 1, .node j k pre i, o⟩ V F := rfl

theorem ve_complete' (m : Marker) (h : F → V w) : Ve c e (m.complete k) ⟨w, u, n, i, (pre, j) :: o⟩ V F := by
  rw [show m.complete k = (m.complete k >>= fun c => pure c) from rfl, ve_complete]
  exact ve_pure _ _ h

theorem ve_precede (cm : Completed) {k0 : Forest} (f : Marker → Prog α) :
    Ve c e (cm.precede >>= f) ⟨w, u, n, .node j k pre k0, o⟩ V F =
      Ve c e (f ⟨n⟩) ⟨w, u, n + 1, .nil, (.node .nil k pre k0, j) :: o⟩ V F := rfl

theorem ve_abandon (m : Marker) (f : Unit → Prog α) :
    Ve c e (m.abandon >>= f) ⟨w, u, n, .nil, (pre, j) :: o⟩ V F = Ve c e (f ()) ⟨w, u, n - 1, j, o⟩ V F := rfl

theorem ve_error (msg : String) (f : Unit → Prog α) (s : TState) (h : V s.toks) :
    Ve c e (error msg >>= f) s V F := by
  refine fun _ => ⟨fun t ht => ?_, fun hf a s' er => by cases er⟩
  have ht : t = s := ht
  rw [ht]
  exact h

theorem ve_error' (msg : String) (s : TState) (h : V s.toks) : Ve c e (error msg) s V F :=
  ve_error msg pure s h

theorem ve_errRecover (msg : String) (ts : TokenSet) (f : Unit → Prog α) (h : V w) :
    Ve c e (errRecover msg ts >>= f) ⟨w, u, n, i, o⟩ V F := by
  unfold errRecover
  simp only [bind_assoc_prog, ve_current]
  split
  · simp only [bind_assoc_prog]
    exact ve_error _ _ _ h
  · simp only [bind_assoc_prog, ve_atTs]
    split
    · simp only [bind_assoc_prog]
      exact ve_error _ _ _ h
    · simp only [bind_assoc_prog, ve_start]
      exact ve_error _ _ _ h

theorem ve_errRecover' (msg : String) (ts : TokenSet) (h : V w) :
    Ve c e (errRecover msg ts) ⟨w, u, n, i, o⟩ V F := by
  rw [← bind_pure_prog (errRecover msg ts)]
  exact ve_errRecover msg ts _ h

theorem ve_errorAndSkipUntil (msg : String) (ts : TokenSet) (f : Completed → Prog α) (h : V w) :
    Ve c e (errorAndSkipUntil msg ts >>= f) ⟨w, u, n, i, o⟩ V F := by
  unfold errorAndSkipUntil
  simp only [bind_assoc_prog, ve_start]
  exact ve_error _ _ _ h

theorem ve_assert {b : Bool} (msg : String) (f : Unit → Prog α) (s : TState)
    (h : b = true → Ve c e (f ()) s V F) : Ve c e (assert b msg >>= f) s V F := by
  cases b with
  | true => exact h rfl
  | false => exact fun _ => ⟨fun t ht => absurd ht id, fun hf a s' er => by cases er⟩

/-! ### Reading one token -/

theorem ve_at (f : Bool → Prog α)
    (h1 : ∀ u', kind0 w = k → Ve c e (f true) ⟨w, u', n, i, o⟩ V F)
    (h2 : ∀ u', kind0 w ≠ k → Ve c e (f false) ⟨w, u', n, i, o⟩ V F) :
    Ve c e (at_ k >>= f) ⟨w, u, n, i, o⟩ V F := by
  rw [ve_at_eq]
  by_cases h : kind0 w = k
  · rw [show (kind0 w == k) = true by simpa using h]; exact h1 _ h
  · rw [show (kind0 w == k) = false by simpa using h]; exact h2 _ h

theorem ve_eat (f : Bool → Prog α) (hk : k ≠ .EOF)
    (h1 : ∀ t l1 l2 w' u' n', w = ⟨k, t, l1, l2⟩ :: w' → Ve c e (f true) ⟨w', u', n', .tok i k, o⟩ V F)
    (h2 : ∀ u', kind0 w ≠ k → Ve c e (f false) ⟨w, u', n, i, o⟩ V F) :
    Ve c e (eat k >>= f) ⟨w, u, n, i, o⟩ V F := by
  unfold eat
  rw [bind_assoc_prog]
  refine ve_at _ (fun u' h => ?_) (fun u' h => ?_)
  · obtain ⟨t, l1, l2, w', rfl⟩ := cons_of_kind0 h hk
    intro hw
    exact h1 t l1 l2 w' u' (n + 1) rfl hw.2.2
  · exact h2 u' h

theorem ve_eat_no (f : Bool → Prog α) (h : kind0 w ≠ k) :
    Ve c e (eat k >>= f) ⟨w, u, n, i, o⟩ V F = Ve c e (f false) ⟨w, u + 1, n, i, o⟩ V F := by
  have : (kind0 w == k) = false := by simpa using h
  simp only [eat, bind_assoc_prog, ve_at_eq, this, Bool.not_false, if_true, pure_bind_prog]

theorem ve_expect (f : Bool → Prog α) (hk : k ≠ .EOF) (h0 : V w)
    (h1 : ∀ t l1 l2 w' u' n', w = ⟨k, t, l1, l2⟩ :: w' → Ve c e (f true) ⟨w', u', n', .tok i k, o⟩ V F) :
    Ve c e (expect k >>= f) ⟨w, u, n, i, o⟩ V F := by
  unfold expect
  rw [bind_assoc_prog]
  refine ve_eat _ hk h1 fun u' _ => ?_
  simp only [Bool.false_eq_true, if_false, bind_assoc_prog]
  exact ve_error _ _ _ h0

theorem ve_bump (f : Unit → Prog α) (hk : k ≠ .EOF)
    (h1 : ∀ t l1 l2 w' u' n', w = ⟨k, t, l1, l2⟩ :: w' → Ve c e (f ()) ⟨w', u', n', .tok i k, o⟩ V F) :
    Ve c e (bump k >>= f) ⟨w, u, n, i, o⟩ V F := by
  unfold bump
  rw [bind_assoc_prog]
  refine ve_eat _ hk (fun t l1 l2 w' u' n' e => h1 t l1 l2 w' u' n' e) fun u' _ => ?_
  exact ve_assert _ _ _ fun h => by cases h

theorem ve_bumpAny (f : Unit → Prog α) {k : Kind} (h : kind0 w = k) (hk : k ≠ .EOF)
    (h1 : ∀ t l1 l2 w' u' n', w = ⟨k, t, l1, l2⟩ :: w' → Ve c e (f ()) ⟨w', u', n', .tok i k, o⟩ V F) :
    Ve c e (bumpAny >>= f) ⟨w, u, n, i, o⟩ V F := by
  obtain ⟨t, l1, l2, w', rfl⟩ := cons_of_kind0 h hk
  unfold bumpAny
  rw [bind_assoc_prog, ve_current, h, if_neg (show ¬ (k == Kind.EOF) = true by simpa using hk)]
  intro hw
  exact h1 t l1 l2 w' u (n + 1) rfl hw.2.2

theorem ve_neither (a b : Kind) (f : Bool → Prog α)
    (h1 : ∀ u', kind0 w = a ∨ kind0 w = b → Ve c e (f false) ⟨w, u', n, i, o⟩ V F)
    (h2 : ∀ u', kind0 w ≠ a → kind0 w ≠ b → Ve c e (f true) ⟨w, u', n, i, o⟩ V F) :
    Ve c e (neither a b >>= f) ⟨w, u, n, i, o⟩ V F := by
  unfold neither
  rw [bind_assoc_prog]
  refine ve_at _ (fun u' h => ?_) (fun u' h => ?_)
  · simp only [pure_bind_prog, if_true]
    exact h1 _ (.inl h)
  · simp only [bind_assoc_prog, pure_bind_prog, Bool.false_eq_true, if_false]
    refine ve_at _ (fun u' h' => ?_) (fun u' h' => ?_)
    · exact h1 _ (.inr h')
    · exact h2 _ h h'

theorem ve_errorBlock (msg : String) (f : Unit → Prog α) (h : V w) :
    Ve c e (errorBlock msg >>= f) ⟨w, u, n, i, o⟩ V F := by
  unfold errorBlock
  simp only [bind_assoc_prog]
  rw [ve_at_eq]
  refine ve_assert _ _ _ fun _ => ?_
  rw [ve_start]
  exact ve_error _ _ _ h

theorem ve_call {f : Fn} {s : TState} (h : Coherent s.toks → (∀ t, e f s t → V t.toks) ∧
      (F → ∀ r s', c f s = .ok r s' → s'.toks = [] → V [])) : Ve c e (call f) s V F := by
  intro hw
  refine ⟨fun t ht => ?_, fun hf r s' er hn => (h hw).2 hf r s' ?_ hn⟩
  · rcases ht with ht | ht
    · exact (h hw).1 t ht
    · obtain ⟨_, _, _, h⟩ := Out.Then.ok ht
      exact absurd h id
  · have er : (c f s).bind (fun r s' => .ok r s') = .ok r s' := er
    cases hcf : c f s with
    | ok a b => rw [hcf] at er; exact er
    | panic w => rw [hcf] at er; cases er
    | outOfFuel => rw [hcf] at er; cases er

end

/-! ### Every construct can be completed -/

/-- The symbols have an instance. -/
def Wit (syms : List Sym) : Prop := ∃ r sh, Der syms r sh

theorem Wit.nil : Wit [] := ⟨[], [], .nil⟩

theorem Wit.append {a b : List Sym} (h1 : Wit a) (h2 : Wit b) : Wit (a ++ b) := by
  obtain ⟨r, sh, d⟩ := h1
  obtain ⟨r', sh', d'⟩ := h2
  exact ⟨_, _, d.append d'⟩

theorem Wit.tok (k : Kind) {syms : List Sym} (h : Wit syms) : Wit (.tok k :: syms) :=
  Wit.append ⟨_, _, Der.one k [] .EOF .EOF⟩ h

theorem Wit.hex {syms : List Sym} (h : Wit syms) : Wit (.hex :: syms) :=
  Wit.append ⟨[⟨.INTEGER_NUMBER, '0' :: 'x' :: [], .EOF, .EOF⟩], _, DerivesBy.hex .nil⟩ h

theorem Wit.cons {x : NT} {syms : List Sym} (h1 : Wit [.nt x]) (h2 : Wit syms) : Wit (.nt x :: syms) :=
  Wit.append h1 h2

theorem Wit.rule {x : NT} {k : Option Kind} {rhs : List Sym} (r : Rule x k rhs) (h : Wit rhs) : Wit [.nt x] := by
  obtain ⟨v, sh, d⟩ := h
  exact ⟨v, _, d.rule (.strict r)⟩

/-- Expressions have levels up to 12. -/
def goodSym : Sym → Bool
  | .nt (.expr q) => decide (q ≤ 12)
  | _ => true

theorem wit_nt (x : NT) (h : goodSym (.nt x) = true) : Wit [.nt x] := by
  have name : Wit [.nt .name] := .rule .name (.tok _ .nil)
  have nameRef : Wit [.nt .nameRef] := .rule .name_ref (.tok _ .nil)
  have segment : Wit [.nt .segment] := .rule .segment nameRef
  have onePath : Wit [.nt .onePath] := .rule .one_path segment
  have path : Wit [.nt .path] := .rule .path_one onePath
  have type : Wit [.nt .type] := .rule .type_path path
  have address : Wit [.nt .address] := .rule .address_name (.tok _ .nil)
  have items : Wit [.nt .items] := .rule .items_nil .nil
  have itemBody : Wit [.nt .itemBody] := .rule .item_body (.tok _ (.cons items (.tok _ .nil)))
  have modules : Wit [.nt .modules] := .rule .modules_nil .nil
  have moduleList : Wit [.nt .moduleList] := .rule .module_list (.tok _ (.cons modules (.tok _ .nil)))
  have stmts : Wit [.nt .stmts] := .rule .stmts_nil .nil
  have block : Wit [.nt .block] := .rule .block (.tok _ (.cons stmts (.tok _ .nil)))
  have params : Wit [.nt .params] := .rule .params_nil .nil
  have paramList : Wit [.nt .paramList] := .rule .param_list (.tok _ (.cons params (.tok _ .nil)))
  have identPat : Wit [.nt .identPat] := .rule .ident_pat name
  have pattern : Wit [.nt .pattern] := .rule .pattern_ident identPat
  have bound : Wit [.nt .bound] := .rule .bound name
  have bounds : Wit [.nt .bounds] := .rule .bounds_one bound
  have generics : Wit [.nt .generics] := .rule .generics_nil .nil
  have fields : Wit [.nt .fields] := .rule .fields_nil .nil
  have patFields : Wit [.nt .patFields] := .rule .pat_fields_nil .nil
  have atom : Wit [.nt .atom] := .rule .atom_true (.tok _ .nil)
  have postfixed : Wit [.nt .postfixed] := .rule .postfixed_atom atom
  have unary : Wit [.nt .unary] := .rule .unary_postfixed postfixed
  have expr12 : Wit [.nt (.expr 12)] := .rule .expr_unary unary
  have args : Wit [.nt .args] := .rule .args_nil .nil
  have exprFields : Wit [.nt .exprFields] := .rule .expr_fields_nil .nil
  have pathExpr : Wit [.nt .pathExpr] := .rule .path_expr onePath
  have expr : ∀ q, q ≤ 12 → Wit [.nt (.expr q)] := by
    intro q hq
    obtain ⟨r, sh, d⟩ := expr12
    exact ⟨r, sh, d.loosen (Nat.le_refl _) hq⟩
  cases x with
  | file => exact .rule .file_nil .nil
  | moduleDef => exact .rule .module_plain (.tok _ (.cons name itemBody))
  | scriptDef => exact .rule .script (.tok _ itemBody)
  | addressDef => exact .rule .address_block (.tok _ (.cons address moduleList))
  | moduleList => exact moduleList
  | modules => exact modules
  | itemBody => exact itemBody
  | items => exact items
  | address => exact address
  | name => exact name
  | nameRef => exact nameRef
  | funDef => exact .rule .fun_unit (.tok _ (.cons name (.cons paramList block)))
  | paramList => exact paramList
  | params => exact params
  | param => exact .rule .param (.cons name (.tok _ type))
  | ret => exact .rule .ret (.tok _ type)
  | structDef => exact .rule .struct_native (.tok _ (.cons name (.tok _ .nil)))
  | genericList => exact .rule .generic_list (.tok _ (.cons generics (.tok _ .nil)))
  | generics => exact generics
  | generic => exact .rule .generic_plain name
  | boundList => exact .rule .bound_list bounds
  | bounds => exact bounds
  | bound => exact bound
  | fieldList => exact .rule .field_list (.tok _ (.cons fields (.tok _ .nil)))
  | fields => exact fields
  | field => exact .rule .field (.cons name (.tok _ type))
  | type => exact type
  | path => exact path
  | segment => exact segment
  | onePath => exact onePath
  | pattern => exact pattern
  | patFieldList => exact .rule .pat_field_list (.tok _ (.cons patFields (.tok _ .nil)))
  | patFields => exact patFields
  | patField => exact .rule .pat_field_short identPat
  | identPat => exact identPat
  | pats => exact .rule .pats_nil .nil
  | block => exact block
  | stmts => exact stmts
  | stmt => exact .rule .stmt_expr (.cons (expr 1 (by decide)) (.tok _ .nil))
  | expr q => exact expr q (by simpa [goodSym] using h)
  | unary => exact unary
  | postfixed => exact postfixed
  | atom => exact atom
  | addressLit => exact .rule .address_lit_name (.tok _ (.tok _ .nil))
  | argList => exact .rule .arg_list (.tok _ (.cons args (.tok _ .nil)))
  | args => exact args
  | exprFieldList => exact .rule .expr_field_list (.tok _ (.cons exprFields (.tok _ .nil)))
  | exprFields => exact exprFields
  | exprField => exact .rule .expr_field_short pathExpr
  | pathExpr => exact pathExpr

theorem wit (syms : List Sym) (h : syms.all goodSym = true) : Wit syms := by
  induction syms with
  | nil => exact .nil
  | cons x syms ih =>
    rw [List.all_cons, Bool.and_eq_true] at h
    cases x with
    | tok k => exact .tok k (ih h.2)
    | hex => exact .hex (ih h.2)
    | nt x => exact .cons (wit_nt x h.1) (ih h.2)

/-! ### Beginnings -/

/-- From the tokens `w`, the beginning of an instance of `syms` was read up to `w'`. -/
def Begun (syms : List Sym) (w w' : List Tok) : Prop :=
  ∃ v r sh, w = v ++ w' ∧ Der syms (v ++ r) sh

section
variable {w w' w'' : List Tok} {i i' : Forest} {a b d rhs : List Sym} {x y z : NT} {k : Option Kind}

/-- Nothing was read. -/
theorem Begun.here (w : List Tok) (h : a.all goodSym = true := by rfl) : Begun a w w := by
  obtain ⟨r, sh, hd⟩ := wit a h
  exact ⟨[], r, sh, rfl, hd⟩

theorem Begun.pad (h : Begun a w w') (hb : b.all goodSym = true := by rfl) : Begun (a ++ b) w w' := by
  obtain ⟨v, r, sh, e, hd⟩ := h
  obtain ⟨r', sh', hd'⟩ := wit b hb
  refine ⟨v, r ++ r', sh ++ sh', e, ?_⟩
  rw [← List.append_assoc]
  exact hd.append hd'

theorem Begun.rule (r : Lenient x k rhs) (h : Begun rhs w w') : Begun [.nt x] w w' := by
  obtain ⟨v, r', sh, e, hd⟩ := h
  exact ⟨v, r', _, e, hd.rule r⟩

/-- Something was read, then the beginning of something else. -/
theorem Took.then (h1 : Took a w i w' i') (h2 : Begun b w' w'') : Begun (a ++ b) w w'' := by
  obtain ⟨v, sh, rfl, hd, _⟩ := h1
  obtain ⟨v', r, sh', rfl, hd'⟩ := h2
  refine ⟨v ++ v', r, sh ++ sh', (List.append_assoc ..).symm, ?_⟩
  rw [List.append_assoc]
  exact hd.append hd'

theorem Took.begun (h : Took a w i w' i') : Begun a w w' := by
  obtain ⟨v, sh, e, hd, _⟩ := h
  exact ⟨v, [], sh, e, by rwa [List.append_nil]⟩

/-- Something was read, and can be followed by `b`. -/
theorem Took.stop (h : Took a w i w' i') (hb : b.all goodSym = true := by rfl) : Begun (a ++ b) w w' :=
  h.then (.here _ hb)

/-- Something was read, then the beginning of `b`, which can be followed by `d`. -/
theorem Took.mid (h : Took a w i w' i') (h2 : Begun b w' w'') (hd : d.all goodSym = true := by rfl) :
    Begun (a ++ (b ++ d)) w w'' :=
  h.then (h2.pad hd)

theorem Begun.flat (r : Lenient x none [.nt y]) (h : Begun [.nt y] w w') : Begun [.nt x] w w' := h.rule r

theorem Begun.loosen {p q : Nat} (h : Begun [.nt (.expr q)] w w') (hq : q ≤ 12) (hpq : p ≤ q) :
    Begun [.nt (.expr p)] w w' := by
  obtain ⟨v, r, sh, e, hd⟩ := h
  exact ⟨v, r, sh, e, hd.loosen hq hpq⟩

/-- The last node has grown up to `w'`: if it was an instance of `x`, it is the beginning of one of `y` now. -/
def Growing (x y : NT) (w : List Tok) (i : Forest) (w' : List Tok) : Prop :=
  ∀ j k pre kids, i = .node j k pre kids → ∃ v, w = v ++ w' ∧
    ∀ v0, Der [.nt x] v0 [nodeOf k pre kids] → ∃ r sh, Der [.nt y] (v0 ++ v ++ r) sh

theorem Grew.growing (h : Grew x y w i w' i') : Growing x y w i w' := by
  intro j k pre kids e
  obtain ⟨k', pre', kids', v, _, e2, d⟩ := h j k pre kids e
  exact ⟨v, e2, fun v0 d0 => ⟨[], _, by rw [List.append_nil]; exact d v0 d0⟩⟩

theorem Grew.then (h : Grew x y w i w' i') (h2 : Growing y z w' i' w'') : Growing x z w i w'' := by
  intro j k pre kids e
  obtain ⟨k', pre', kids', v, e1, rfl, d⟩ := h j k pre kids e
  obtain ⟨v', rfl, d'⟩ := h2 _ _ _ _ e1
  refine ⟨v ++ v', (List.append_assoc ..).symm, fun v0 d0 => ?_⟩
  obtain ⟨r, sh, hd⟩ := d' _ (d v0 d0)
  exact ⟨r, sh, by rwa [← List.append_assoc v0]⟩

/-- A node is put around the last one, and what follows in it has begun. -/
theorem Growing.node {K kind : Kind} {j pre kids : Forest} (r : Lenient y (some K) (.nt z :: rhs))
    (hz : ∀ v sh, Der [.nt x] v sh → Der [.nt z] v sh) (h : Begun rhs w w') :
    Growing x y w (.node j kind pre kids) w' := by
  obtain ⟨v, t, sh, rfl, d⟩ := h
  intro j' k' pre' kids' e
  cases e
  refine ⟨v, rfl, fun v0 d0 => ⟨t, wrap (some K) ([nodeOf kind pre kids] ++ sh), ?_⟩⟩
  rw [List.append_assoc]
  exact ((hz _ _ d0).append d).rule r

theorem TookNode.growing (h : TookNode x w i w' i') (h2 : Growing x y w' i' w'') : Begun [.nt y] w w'' := by
  obtain ⟨k, pre, kids, v, rfl, rfl, d⟩ := h
  obtain ⟨v', rfl, d'⟩ := h2 _ _ _ _ rfl
  obtain ⟨r, sh, hd⟩ := d' v d
  exact ⟨v ++ v', r, sh, (List.append_assoc ..).symm, hd⟩

end

end Verif.Parser
