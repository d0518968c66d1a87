import Verif.Parser.LostSpec
import Verif.Parser.Check
import Verif.Parser.Wp

set_option autoImplicit false

/-!
A check of grammar functions that counts lookups: each lookup costs a unit of credit, each token pays `GAIN` units.
-/

namespace Verif.Parser

open Kind

scoped notation "GAIN" => (11 : Nat)

/-- The credit needed for a call. -/
def need : Fn → Nat
  | .skipUntil _ => 0
  | .rootLoop => 6
  | .addressItemLoop => 4
  | .itemLoop => 5
  | .recordFieldLoop => 5
  | .paramLoop => 6
  | .type_ => 3
  | .pathLoop _ => 3
  | .genericParamLoop => 5
  | .boundsLoop => 2
  | .pattern => 4
  | .tuplePatLoop _ _ _ => 7
  | .recordPatLoop => 7
  | .blockLoop => 6
  | .exprBlockLoop => 7
  | .stmt _ => 4
  | .exprBp _ => 3
  | .exprBpLoop _ _ => 1
  | .postfixLoop _ => 3
  | .argLoop => 5
  | .recordExprLoop => 6
  | .parenLoop => 5

/-- When a call certainly consumes a token. -/
def eats : Fn → Kind → Prop
  | .skipUntil ts, k => ts.contains k = false
  | .type_, k => k = AMP ∨ k = IDENT
  | .pattern, k => PATTERN_FIRST.contains k = true
  | .stmt .no, _ => False
  | .stmt _, k => k ≠ R_PAREN ∧ k ≠ EOF
  | .exprBp _, k => k ≠ R_PAREN ∧ k ≠ EOF ∧ k ≠ SEMICOLON
  | _, _ => False

/-- What a call costs that consumes a token, besides the credit for one token. -/
def eatCost : Fn → Nat
  | .type_ => 5
  | .pattern => 6
  | .stmt _ => 7
  | .exprBp _ => 5
  | _ => 0

/-- What another call costs. -/
def idleCost : Fn → Nat
  | .rootLoop => 1
  | .addressItemLoop => 2
  | .itemLoop => 2
  | .recordFieldLoop => 2
  | .paramLoop => 2
  | .pathLoop _ => 2
  | .genericParamLoop => 4
  | .tuplePatLoop _ _ _ => 2
  | .recordPatLoop => 2
  | .blockLoop => 2
  | .exprBlockLoop => 2
  | .stmt _ => 2
  | .argLoop => 4
  | .recordExprLoop => 2
  | .parenLoop => 2
  | _ => 0

/-- The credit `c` became `c'` at a cost of `e` and one token, if it was consumed, or `i`, if not. -/
def Paid (eaten : Prop) (c c' e i : Nat) : Prop :=
  (eaten → c + GAIN ≤ c' + e) ∧ (¬ eaten → c ≤ c' + i)

theorem Paid.cases {p : Prop} {c c' e i : Nat} (h : Paid p c c' e i) :
    (p ∧ c + GAIN ≤ c' + e) ∨ (¬ p ∧ c ≤ c' + i) := by
  by_cases hp : p
  · exact .inl ⟨hp, h.1 hp⟩
  · exact .inr ⟨hp, h.2 hp⟩

/-- When a call certainly consumes nothing. -/
def stays : Fn → Kind → Prop
  | .skipUntil ts, k => ts.contains k = true
  | .postfixLoop _, k => k = SEMICOLON
  | .exprBpLoop _ _, k => k = SEMICOLON
  | .exprBp _, k => k = SEMICOLON
  | _, _ => False

/-- What holds after a call of `f` at a token of kind `k` with credit `c`. -/
def Called (f : Fn) (k : Kind) (c : Nat) (y : Kind) (c' : Nat) : Prop :=
  (stays f k → y = k) ∧ Paid (eats f k) c c' (eatCost f) (idleCost f)

/-- The check. -/
def Ck {α : Type} : Prog α → Kind → Nat → (α → Kind → Nat → Prop) → Prop
  | .pure a, k, c, Q => Q a k c
  | .panic w, _, _, _ => ¬ Allowed w
  | .current κ, k, c, Q => Ck (κ k) k c Q
  | .currentText κ, k, c, Q => ∀ t, Ck (κ t) k c Q
  | .nth n κ, k, c, Q => 1 ≤ c ∧ ∀ x, (n = 0 → x = k) → Ck (κ x) k (c - 1) Q
  | .doBump _ κ, k, c, Q => k ≠ EOF ∧ ∀ y, Ck κ y (c + GAIN) Q
  | .start κ, k, c, Q => ∀ m, Ck (κ m) k c Q
  | .complete _ _ κ, k, c, Q => ∀ r, Ck (κ r) k c Q
  | .abandon _ κ, k, c, Q => Ck κ k c Q
  | .precede _ κ, k, c, Q => ∀ m, Ck (κ m) k c Q
  | .error _ κ, k, c, Q => Ck κ k c Q
  | .call f κ, k, c, Q => need f ≤ c ∧ ∀ r y c', Called f k c y c' → Ck (κ r) y c' Q

/-- What the check says of the end of a run: `L` bounds the lookups made and those that can be paid for. -/
def Fine {α : Type} (L : Nat) (Q : α → Kind → Nat → Prop) : Out TState α → Prop
  | .ok a s => ∃ c, Q a (kind0 s.toks) c ∧ s.used + c + GAIN * s.toks.length ≤ L
  | .panic w => ¬ Allowed w
  | .outOfFuel => True

theorem Fine.bind {α β : Type} {L : Nat} {Q : α → Kind → Nat → Prop} {R : β → Kind → Nat → Prop}
    {o : Out TState α} {f : α → TState → Out TState β} (h : Fine L Q o)
    (hf : ∀ a s c, Q a (kind0 s.toks) c → s.used + c + GAIN * s.toks.length ≤ L → Fine L R (f a s)) :
    Fine L R (o.bind f) := by
  cases o with
  | ok a s => obtain ⟨c, h1, h2⟩ := h; exact hf a s c h1 h2
  | panic w => exact h
  | outOfFuel => trivial

/-- Running `p` in `s`, a loop is called at a token that it does not get past. -/
def Strays {α : Type} (p : Prog α) (s : TState) : Prop := ∃ f t, Calls p s f t ∧ Lost f (kind0 t.toks)

theorem Strays.of_exec {α : Type} {p q : Prog α} {s t : TState} (hp : Strays p s) (h : exec q t = exec p s) :
    Strays q t := by
  obtain ⟨f, u, hc, hl⟩ := hp
  refine ⟨f, u, ?_, hl⟩
  cases hc with
  | here h1 => exact .here (h.trans h1)
  | inside h1 h2 => exact .inside (h.trans h1) h2
  | after h1 h2 h3 => exact .after (h.trans h1) h2 h3

theorem Ck.sound {α : Type} {L : Nat} (hL : L ≤ stepLimit + 1) {callee : (f : Fn) → TState → Out TState f.Res}
    (hr : ∀ f s r s', callee f s = .ok r s' → Runs (body f) s r s')
    (hc : ∀ f s c, need f ≤ c → s.used + c + GAIN * s.toks.length ≤ L → ¬ Lost f (kind0 s.toks) →
      Strays (body f) s ∨ Fine L (fun _ y c' => Called f (kind0 s.toks) c y c') (callee f s))
    {p : Prog α} {s : TState} {c : Nat} {Q : α → Kind → Nat → Prop} (h : Ck p (kind0 s.toks) c Q)
    (hs : s.used + c + GAIN * s.toks.length ≤ L) : Strays p s ∨ Fine L Q (run tokenLevel callee p s) := by
  induction p generalizing s c with
  | pure a => exact .inr ⟨c, h, hs⟩
  | panic w => exact .inr h
  | current κ ih => exact (ih _ h hs).elim (fun h => .inl (Strays.of_exec h rfl)) .inr
  | currentText κ ih => exact (ih _ (h _) hs).elim (fun h => .inl (Strays.of_exec h rfl)) .inr
  | nth n κ ih =>
    obtain ⟨h1, h2⟩ := h
    show _ ∨ Fine L Q (Out.bind (tNthLimited n s) _)
    unfold tNthLimited
    by_cases hn : n ≤ 3
    · rw [if_pos hn, if_pos (by omega)]
      match n, hn with
      | 0, _ =>
        exact (ih _ (s := { s with used := s.used + 1 }) (h2 _ fun _ => rfl) (by simp only; omega)).elim (fun h => .inl (Strays.of_exec h rfl)) .inr
      | 1, _ =>
        exact (ih _ (s := { s with used := s.used + 1 }) (h2 _ (fun h => by cases h)) (by simp only; omega)).elim (fun h => .inl (Strays.of_exec h rfl)) .inr
      | 2, _ =>
        exact (ih _ (s := { s with used := s.used + 1 }) (h2 _ (fun h => by cases h)) (by simp only; omega)).elim (fun h => .inl (Strays.of_exec h rfl)) .inr
      | 3, _ => exact .inr (by simp [Out.bind, Fine, tNth, Allowed])
    · rw [if_neg hn]
      exact .inr (by simp [Out.bind, Fine, Allowed])
  | doBump kd κ ih =>
    obtain ⟨h1, h2⟩ := h
    obtain ⟨toks, used, n, items, outer⟩ := s
    cases toks with
    | nil => exact absurd rfl h1
    | cons t w =>
      refine (ih (s := ⟨w, used, n + 1, .tok items kd, outer⟩) (h2 _) ?_).elim (fun h => .inl (Strays.of_exec h rfl)) .inr
      simp only [List.length_cons] at hs ⊢
      omega
  | start κ ih =>
    exact (ih _ (s := ⟨s.toks, s.used, s.n + 1, .nil, (.nil, s.items) :: s.outer⟩) (h _) hs).elim (fun h => .inl (Strays.of_exec h rfl)) .inr
  | complete m kd κ ih =>
    cases he : tComplete m kd s with
    | ok q s' =>
      have h3 : s'.toks = s.toks ∧ s'.used = s.used := by
        unfold tComplete at he
        split at he
        · cases he; exact ⟨rfl, rfl⟩
        · cases he
      have e1 : exec (.complete m kd κ) s = exec (κ q) s' := by
        show Stage.ofOut (tComplete m kd s) _ = _
        rw [he]; rfl
      have e2 : run tokenLevel callee (.complete m kd κ) s = run tokenLevel callee (κ q) s' := by
        show Out.bind (tComplete m kd s) _ = _
        rw [he]; rfl
      rw [e2]
      exact (ih q (s := s') (by rw [h3.1]; exact h q) (by rw [h3.1, h3.2]; exact hs)).elim (fun h => .inl (Strays.of_exec h e1)) .inr
    | panic w =>
      have e2 : run tokenLevel callee (.complete m kd κ) s = .panic w := by
        show Out.bind (tComplete m kd s) _ = _
        rw [he]; rfl
      rw [e2]
      unfold tComplete at he
      split at he
      · cases he
      · cases he; exact .inr (by simp [Fine, Allowed])
    | outOfFuel =>
      unfold tComplete at he
      split at he <;> cases he
  | abandon m κ ih =>
    cases he : tAbandon s with
    | ok q s' =>
      have h3 : s'.toks = s.toks ∧ s'.used = s.used := by
        unfold tAbandon at he
        split at he
        · split at he <;> (cases he; exact ⟨rfl, rfl⟩)
        · cases he
      have e1 : exec (.abandon m κ) s = exec κ s' := by
        show Stage.ofOut (tAbandon s) _ = _
        rw [he]; rfl
      have e2 : run tokenLevel callee (.abandon m κ) s = run tokenLevel callee κ s' := by
        show Out.bind (tAbandon s) _ = _
        rw [he]; rfl
      rw [e2]
      exact (ih (s := s') (by rw [h3.1]; exact h) (by rw [h3.1, h3.2]; exact hs)).elim (fun h => .inl (Strays.of_exec h e1)) .inr
    | panic w =>
      have e2 : run tokenLevel callee (.abandon m κ) s = .panic w := by
        show Out.bind (tAbandon s) _ = _
        rw [he]; rfl
      rw [e2]
      unfold tAbandon at he
      split at he
      · split at he <;> cases he
      · cases he; exact .inr (by simp [Fine, Allowed])
    | outOfFuel =>
      unfold tAbandon at he
      split at he
      · split at he <;> cases he
      · cases he
  | precede q κ ih =>
    cases he : tPrecede s with
    | ok q' s' =>
      have h3 : s'.toks = s.toks ∧ s'.used = s.used := by
        unfold tPrecede at he
        split at he
        · cases he; exact ⟨rfl, rfl⟩
        · cases he
      have e1 : exec (.precede q κ) s = exec (κ q') s' := by
        show Stage.ofOut (tPrecede s) _ = _
        rw [he]; rfl
      have e2 : run tokenLevel callee (.precede q κ) s = run tokenLevel callee (κ q') s' := by
        show Out.bind (tPrecede s) _ = _
        rw [he]; rfl
      rw [e2]
      exact (ih q' (s := s') (by rw [h3.1]; exact h q') (by rw [h3.1, h3.2]; exact hs)).elim (fun h => .inl (Strays.of_exec h e1)) .inr
    | panic w =>
      have e2 : run tokenLevel callee (.precede q κ) s = .panic w := by
        show Out.bind (tPrecede s) _ = _
        rw [he]; rfl
      rw [e2]
      unfold tPrecede at he
      split at he
      · cases he
      · cases he; exact .inr (by simp [Fine, Allowed])
    | outOfFuel =>
      unfold tPrecede at he
      split at he <;> cases he
  | error msg κ ih => exact (ih (s := { s with n := s.n + 1, items := .err s.items msg }) h hs).elim (fun h => .inl (Strays.of_exec h rfl)) .inr
  | call f κ ih =>
    obtain ⟨h1, h2⟩ := h
    by_cases hlost : Lost f (kind0 s.toks)
    · exact .inl ⟨f, s, .here rfl, hlost⟩
    rcases hc f s c h1 hs hlost with ⟨g, t, h3, h4⟩ | h3
    · exact .inl ⟨g, t, .inside rfl h3, h4⟩
    · show _ ∨ Fine L Q ((callee f s).bind fun r s' => run tokenLevel callee (κ r) s')
      cases he : callee f s with
      | ok r s' =>
        rw [he] at h3
        obtain ⟨c', hp, hs'⟩ := h3
        rcases ih r (h2 r _ c' hp) hs' with ⟨g, t, h5, h6⟩ | h5
        · exact .inl ⟨g, t, .after rfl (hr f s r s' he) h5, h6⟩
        · exact .inr h5
      | panic w => rw [he] at h3; exact .inr h3
      | outOfFuel => exact .inr trivial

/-- The condition on the bodies. -/
def BodyCk (f : Fn) : Prop :=
  ∀ k c, need f ≤ c → ¬ Lost f k → Ck (body f) k c fun _ y c' => Called f k c y c'

/-- A run of the machine, with or without the limit, is a run. -/
theorem runs_of_run {look : Nat → TState → Out TState Kind}
    (hn : ∀ n s k s', look n s = .ok k s' → tNth n s = .ok k s') {callee : (f : Fn) → TState → Out TState f.Res}
    (hr : ∀ f s r s', callee f s = .ok r s' → Runs (body f) s r s') {α : Type} {p : Prog α} {s s' : TState} {a : α}
    (h : run { tokenFree with nth := look } callee p s = .ok a s') : Runs p s a s' := by
  have key : ∀ {β : Type} {o : Out TState β} {f : β → TState → Out TState α}, o.bind f = .ok a s' →
      ∃ b s1, o = .ok b s1 ∧ f b s1 = .ok a s' := by
    intro β o f h
    cases o with
    | ok b s1 => exact ⟨b, s1, rfl, h⟩
    | panic w => cases h
    | outOfFuel => cases h
  induction p generalizing s with
  | pure b => cases h; exact .done rfl
  | panic w => cases h
  | current κ ih => exact Runs.of_exec (q := κ (kind0 s.toks)) (t := s) rfl (ih _ h)
  | currentText κ ih =>
    obtain ⟨b, s1, h1, h2⟩ := key h
    refine Runs.of_exec (q := κ b) (t := s1) ?_ (ih b h2)
    show Stage.ofOut (tokenFree.currentText s) _ = _
    rw [show tokenFree.currentText s = .ok b s1 from h1]; rfl
  | nth n κ ih =>
    obtain ⟨b, s1, h1, h2⟩ := key h
    refine Runs.of_exec (q := κ b) (t := s1) ?_ (ih b h2)
    have h3 : tNth n s = .ok b s1 := hn n s b s1 h1
    show Stage.ofOut (tNth n s) _ = _
    rw [h3]; rfl
  | doBump kd κ ih =>
    obtain ⟨b, s1, h1, h2⟩ := key h
    refine Runs.of_exec (q := κ) (t := s1) ?_ (ih h2)
    show Stage.ofOut (tokenFree.doBump kd s) _ = _
    rw [show tokenFree.doBump kd s = .ok b s1 from h1]; rfl
  | start κ ih =>
    obtain ⟨b, s1, h1, h2⟩ := key h
    refine Runs.of_exec (q := κ b) (t := s1) ?_ (ih b h2)
    show Stage.ofOut (tokenFree.start s) _ = _
    rw [show tokenFree.start s = .ok b s1 from h1]; rfl
  | complete m kd κ ih =>
    obtain ⟨b, s1, h1, h2⟩ := key h
    refine Runs.of_exec (q := κ b) (t := s1) ?_ (ih b h2)
    show Stage.ofOut (tokenFree.complete m kd s) _ = _
    rw [show tokenFree.complete m kd s = .ok b s1 from h1]; rfl
  | abandon m κ ih =>
    obtain ⟨b, s1, h1, h2⟩ := key h
    refine Runs.of_exec (q := κ) (t := s1) ?_ (ih h2)
    show Stage.ofOut (tokenFree.abandon m s) _ = _
    rw [show tokenFree.abandon m s = .ok b s1 from h1]; rfl
  | precede q κ ih =>
    obtain ⟨b, s1, h1, h2⟩ := key h
    refine Runs.of_exec (q := κ b) (t := s1) ?_ (ih b h2)
    show Stage.ofOut (tokenFree.precede q s) _ = _
    rw [show tokenFree.precede q s = .ok b s1 from h1]; rfl
  | error msg κ ih =>
    obtain ⟨b, s1, h1, h2⟩ := key h
    refine Runs.of_exec (q := κ) (t := s1) ?_ (ih h2)
    show Stage.ofOut (tokenFree.error msg s) _ = _
    rw [show tokenFree.error msg s = .ok b s1 from h1]; rfl
  | call f κ ih =>
    obtain ⟨b, s1, h1, h2⟩ := key h
    exact .call rfl (hr f s b s1 h1) (ih b h2)

theorem callN_runs (n : Nat) (f : Fn) (s : TState) (r : f.Res) (s' : TState)
    (h : callN tokenLevel body n f s = .ok r s') : Runs (body f) s r s' := by
  induction n generalizing f s s' with
  | zero => cases h
  | succ n ih =>
    refine runs_of_run (look := tNthLimited) (fun n s k s' h => ?_) ih h
    unfold tNthLimited at h
    split at h
    · split at h
      · exact h
      · cases h
    · cases h

theorem callN_free_runs (n : Nat) (f : Fn) (s : TState) (r : f.Res) (s' : TState)
    (h : callN tokenFree body n f s = .ok r s') : Runs (body f) s r s' := by
  induction n generalizing f s s' with
  | zero => cases h
  | succ n ih => exact runs_of_run (look := tNth) (fun _ _ _ _ h => h) ih h

theorem callN_fine (hb : ∀ f, BodyCk f) {L : Nat} (hL : L ≤ stepLimit + 1) (n : Nat) (f : Fn) (s : TState) (c : Nat)
    (hc : need f ≤ c) (hs : s.used + c + GAIN * s.toks.length ≤ L) (hl : ¬ Lost f (kind0 s.toks)) :
    Strays (body f) s ∨ Fine L (fun _ y c' => Called f (kind0 s.toks) c y c') (callN tokenLevel body n f s) := by
  induction n generalizing f s c with
  | zero => exact .inr trivial
  | succ n ih =>
    exact Ck.sound hL (callN_runs n) (fun f s c h1 h2 h3 => ih f s c h1 h2 h3) (p := body f) (c := c) (hb f _ c hc hl) hs

/-! Rules. -/

variable {α β : Type} {k x : Kind} {c : Nat}

theorem ck_bind {p : Prog α} {f : α → Prog β} {Q : β → Kind → Nat → Prop}
    (h : Ck p k c fun a y c' => Ck (f a) y c' Q) : Ck (p >>= f) k c Q := by
  show Ck (p.bind f) k c Q
  induction p generalizing k c with
  | pure a => exact h
  | panic w => exact h
  | current κ ih => exact ih _ h
  | currentText κ ih => exact fun t => ih _ (h t)
  | nth n κ ih => exact ⟨h.1, fun x hx => ih _ (h.2 x hx)⟩
  | doBump kd κ ih => exact ⟨h.1, fun y => ih (h.2 y)⟩
  | start κ ih => exact fun m => ih _ (h m)
  | complete m kd κ ih => exact fun r => ih _ (h r)
  | abandon m κ ih => exact ih h
  | precede q κ ih => exact fun m => ih _ (h m)
  | error msg κ ih => exact ih h
  | call f κ ih => exact ⟨h.1, fun r y c' hp => ih _ (h.2 r y c' hp)⟩

theorem ck_mono {p : Prog α} {Q R : α → Kind → Nat → Prop} (h : Ck p k c Q) (hq : ∀ a y c', Q a y c' → R a y c') :
    Ck p k c R := by
  induction p generalizing k c with
  | pure a => exact hq _ _ _ h
  | panic w => exact h
  | current κ ih => exact ih _ h
  | currentText κ ih => exact fun t => ih _ (h t)
  | nth n κ ih => exact ⟨h.1, fun x hx => ih _ (h.2 x hx)⟩
  | doBump kd κ ih => exact ⟨h.1, fun y => ih (h.2 y)⟩
  | start κ ih => exact fun m => ih _ (h m)
  | complete m kd κ ih => exact fun r => ih _ (h r)
  | abandon m κ ih => exact ih h
  | precede q κ ih => exact fun m => ih _ (h m)
  | error msg κ ih => exact ih h
  | call f κ ih => exact ⟨h.1, fun r y c' hp => ih _ (h.2 r y c' hp)⟩

end Verif.Parser
