import Verif.Parser.FirstError
import Verif.Parser.MissingSpec

set_option autoImplicit false

/-!
The messages of the parser and the tokens at which they are reported.
-/

namespace Verif.Parser

open Lexer Missing

/-! ### A check of programs: each message is right about the current token -/

/-- What is known of the result of a function. -/
def Returned : (f : Fn) → f.Res → Prop
  | .exprBp _, r => r.isSome = true
  | _, _ => True

/-- The check.  `k` is the current token. -/
def Tl {α : Type} : Prog α → Kind → (α → Kind → Prop) → Prop
  | .pure a, k, Q => Q a k
  | .panic _, _, _ => True
  | .current κ, k, Q => Tl (κ k) k Q
  | .currentText κ, k, Q => ∀ t, Tl (κ t) k Q
  | .nth n κ, k, Q => ∀ x, (n = 0 → x = k) → Tl (κ x) k Q
  | .doBump _ κ, _, Q => ∀ y, Tl κ y Q
  | .start κ, k, Q => ∀ m, Tl (κ m) k Q
  | .complete _ _ κ, k, Q => ∀ r, Tl (κ r) k Q
  | .abandon _ κ, k, Q => Tl κ k Q
  | .precede _ κ, k, Q => ∀ m, Tl (κ m) k Q
  | .error msg κ, k, Q => Right msg k ∧ Tl κ k Q
  | .call f κ, _, Q => ∀ r y, Returned f r → Tl (κ r) y Q

/-! ### What the check is good for -/

/-- The tokens (`none`) and messages of a forest from left to right. -/
def Forest.said : Forest → List (Option String)
  | .nil => []
  | .tok i _ => i.said ++ [none]
  | .err i m => i.said ++ [some m]
  | .tomb i => i.said
  | .node i _ pre kids => i.said ++ pre.said ++ kids.said

theorem said_append (a b : Forest) : (a.append b).said = a.said ++ b.said := by
  induction b with
  | nil => exact (List.append_nil _).symm
  | tok i k ih => simp only [Forest.append, Forest.said, ih, List.append_assoc]
  | err i m ih => simp only [Forest.append, Forest.said, ih, List.append_assoc]
  | tomb i ih => exact ih
  | node i k pre kids ih => simp only [Forest.append, Forest.said, ih, List.append_assoc]

def stackSaid : List Saved → List (Option String)
  | [] => []
  | s :: rest => stackSaid rest ++ (s.items.said ++ s.pre.said)

/-- The tokens and messages so far. -/
def HState.said (h : HState) : List (Option String) := stackSaid h.outer ++ h.items.said

/-- All messages so far are right about the tokens `T`, and the tokens that are left are those not yet read. -/
structure AllRight (T : List Tok) (h : HState) (s : TState) : Prop where
  rep : TRep h s
  left : T.drop (h.said.count none) = s.toks
  right : ∀ a m b, h.said = a ++ some m :: b → Right m (kind0 (T.drop (a.count none)))

/-- An operation that neither reads tokens nor reports messages. -/
theorem AllRight.quiet {T : List Tok} {α : Type} {oh : Out HState α} {ol : Out TState α} {h h' : HState} {s : TState} {a : α}
    (r : AllRight T h s) (e : oh = .ok a h') (ag : AgreeR TRep oh ol) (hm : h'.said = h.said)
    (hs : ∀ s', ol = .ok a s' → s'.toks = s.toks) : ∃ s', AllRight T h' s' ∧ s'.toks = s.toks := by
  rw [e] at ag
  obtain ⟨s', e', r'⟩ := ag
  exact ⟨s', ⟨r', by rw [hm, r.left, hs s' e'], fun a m b h1 => r.right a m b (by rw [← hm]; exact h1)⟩, hs s' e'⟩

theorem split_end {α : Type} {l a b : List α} {x y : α} (h : l ++ [x] = a ++ y :: b) :
    (b = [] ∧ a = l ∧ y = x) ∨ ∃ b', b = b' ++ [x] ∧ l = a ++ y :: b' := by
  rcases List.eq_nil_or_concat b with rfl | ⟨b', z, rfl⟩
  · obtain ⟨h1, h2⟩ := List.append_inj' h rfl
    cases h2
    exact .inl ⟨rfl, h1.symm, rfl⟩
  · have h : l ++ [x] = (a ++ y :: b') ++ [z] := by
      rw [h]
      simp
    obtain ⟨h1, h2⟩ := List.append_inj' h rfl
    cases h2
    exact .inr ⟨b', by simp, h1⟩

theorem right_doBump {T : List Tok} {h h' : HState} {s : TState} {kind : Kind} {a : Unit} (r : AllRight T h s)
    (e : highLevel.doBump kind h = .ok a h') : ∃ s', AllRight T h' s' := by
  have ag := tokenLevel_agree.doBump kind h s r.rep
  rw [e] at ag
  obtain ⟨s', e', r'⟩ := ag
  have e : hDoBump kind h = .ok a h' := e
  have hm : h'.said = h.said ++ [none] := by
    unfold hDoBump at e
    split at e <;> cases e
    simp only [HState.said, Forest.said, List.append_assoc]
  refine ⟨s', r', ?_, fun a m b h1 => ?_⟩
  · cases e'
    rw [hm, List.count_append, ← List.drop_drop, r.left]
    simp
  · rw [hm] at h1
    rcases split_end h1 with ⟨_, _, h2⟩ | ⟨b', rfl, h2⟩
    · cases h2
    · exact r.right _ _ _ h2

theorem right_error {T : List Tok} {h h' : HState} {s : TState} {msg : String} {a : Unit} (r : AllRight T h s)
    (hr : Right msg (kind0 s.toks)) (e : highLevel.error msg h = .ok a h') : ∃ s', AllRight T h' s' ∧ s'.toks = s.toks := by
  have ag := tokenLevel_agree.error msg h s r.rep
  rw [e] at ag
  obtain ⟨s', e', r'⟩ := ag
  have hm : h'.said = h.said ++ [some msg] := by
    cases e
    simp only [HState.said, Forest.said, List.append_assoc]
  have ht : s'.toks = s.toks := by cases e'; rfl
  refine ⟨s', ⟨r', ?_, fun a m b h1 => ?_⟩, ht⟩
  · rw [hm, List.count_append, ht, ← r.left]
    simp
  · rw [hm] at h1
    rcases split_end h1 with ⟨_, rfl, h2⟩ | ⟨b', rfl, h2⟩
    · cases h2
      rw [r.left]
      exact hr
    · exact r.right _ _ _ h2

theorem right_currentText {T : List Tok} {h h' : HState} {s : TState} {a : Text} (r : AllRight T h s)
    (e : highLevel.currentText h = .ok a h') : ∃ s', AllRight T h' s' ∧ s'.toks = s.toks := by
  refine r.quiet e (tokenLevel_agree.currentText h s r.rep) ?_ (fun s' e => by cases e; rfl)
  simp only [highLevel] at e
  split at e <;> cases e
  rfl

theorem right_nth {T : List Tok} {h h' : HState} {s : TState} {n : Nat} {a : Kind} (r : AllRight T h s)
    (e : highLevel.nth n h = .ok a h') : ∃ s', AllRight T h' s' ∧ s'.toks = s.toks ∧ (n = 0 → a = kind0 s.toks) := by
  have hs : ∀ s', tokenLevel.nth n s = .ok a s' → s'.toks = s.toks ∧ (n = 0 → a = kind0 s.toks) := by
    intro s' e
    have e : tNthLimited n s = .ok a s' := e
    unfold tNthLimited at e
    split at e
    · split at e
      · match n, e with
        | 0, e => cases e; exact ⟨rfl, fun _ => rfl⟩
        | 1, e => cases e; exact ⟨rfl, fun h => by cases h⟩
        | 2, e => cases e; exact ⟨rfl, fun h => by cases h⟩
      · cases e
    · cases e
  obtain ⟨s', h1, h2⟩ := r.quiet e (tokenLevel_agree.nth n h s r.rep) (by
    have e : hNth n h = .ok a h' := e
    unfold hNth at e
    split at e
    · split at e
      · split at e
        · split at e <;> cases e
          rfl
        · cases e
      · cases e
    · cases e) (fun s' e => (hs s' e).1)
  have ag := tokenLevel_agree.nth n h s r.rep
  rw [e] at ag
  obtain ⟨s2, e2, _⟩ := ag
  exact ⟨s', h1, h2, (hs s2 e2).2⟩

theorem right_start {T : List Tok} {h h' : HState} {s : TState} {a : Marker} (r : AllRight T h s)
    (e : highLevel.start h = .ok a h') : ∃ s', AllRight T h' s' ∧ s'.toks = s.toks := by
  refine r.quiet e (tokenLevel_agree.start h s r.rep) ?_ (fun s' e => by cases e; rfl)
  cases e
  simp only [HState.said, stackSaid, Forest.said, List.append_nil]

theorem right_complete {T : List Tok} {h h' : HState} {s : TState} {m : Marker} {kind : Kind} {a : Completed} (r : AllRight T h s)
    (e : highLevel.complete m kind h = .ok a h') : ∃ s', AllRight T h' s' ∧ s'.toks = s.toks := by
  refine r.quiet e (tokenLevel_agree.complete m kind h s r.rep) ?_ (fun s' e => ?_)
  · have e : hComplete m kind h = .ok a h' := e
    unfold hComplete at e
    split at e
    · rename_i sv rest ho
      split at e <;> cases e
      simp only [HState.said, ho, stackSaid, Forest.said, List.append_assoc]
    · cases e
  · have e : tComplete m kind s = .ok a s' := e
    unfold tComplete at e
    split at e <;> cases e
    rfl

theorem right_abandon {T : List Tok} {h h' : HState} {s : TState} {m : Marker} {a : Unit} (r : AllRight T h s)
    (e : highLevel.abandon m h = .ok a h') : ∃ s', AllRight T h' s' ∧ s'.toks = s.toks := by
  refine r.quiet e (tokenLevel_agree.abandon m h s r.rep) ?_ (fun s' e => ?_)
  · have e : hAbandon m h = .ok a h' := e
    unfold hAbandon at e
    split at e
    · rename_i sv rest ho
      split at e
      · rename_i hm
        split at e
        · rename_i hi
          cases e
          simp only [HState.said, ho, stackSaid, Forest.said, hm.2, hi, List.append_nil]
        · cases e
          simp only [HState.said, ho, stackSaid, Forest.said, hm.2, said_append, List.append_assoc,
            List.nil_append]
      · cases e
    · cases e
  · have e : tAbandon s = .ok a s' := e
    unfold tAbandon at e
    split at e
    · split at e <;> cases e <;> rfl
    · cases e

theorem right_precede {T : List Tok} {h h' : HState} {s : TState} {q : Completed} {a : Marker} (r : AllRight T h s)
    (e : highLevel.precede q h = .ok a h') : ∃ s', AllRight T h' s' ∧ s'.toks = s.toks := by
  refine r.quiet e (tokenLevel_agree.precede q h s r.rep) ?_ (fun s' e => ?_)
  · have e : hPrecede q h = .ok a h' := e
    unfold hPrecede at e
    split at e
    · rename_i hi
      split at e <;> cases e
      simp only [HState.said, hi, stackSaid, Forest.said, List.append_nil, List.nil_append, List.append_assoc]
    · cases e
  · have e : tPrecede s = .ok a s' := e
    unfold tPrecede at e
    split at e <;> cases e
    rfl

/-- The functions that are called keep the messages right. -/
def CalleeRight (T : List Tok) (c : (f : Fn) → HState → Out HState f.Res) : Prop :=
  ∀ f h s a h', AllRight T h s → c f h = .ok a h' → ∃ s', AllRight T h' s' ∧ Returned f a

theorem run_right {T : List Tok} {c : (f : Fn) → HState → Out HState f.Res} (hc : CalleeRight T c) {α : Type} (p : Prog α)
    {Q : α → Kind → Prop} {h h' : HState} {s : TState} {a : α} (r : AllRight T h s) (hp : Tl p (kind0 s.toks) Q)
    (e : run highLevel c p h = .ok a h') : ∃ s', AllRight T h' s' ∧ Q a (kind0 s'.toks) := by
  have split : ∀ {β : Type} {o : Out HState β} {f : β → HState → Out HState α}, o.bind f = .ok a h' →
      ∃ b h1, o = .ok b h1 ∧ f b h1 = .ok a h' := by
    intro β o f e
    cases o with
    | ok b h1 => exact ⟨b, h1, rfl, e⟩
    | panic w => cases e
    | outOfFuel => cases e
  induction p generalizing h s with
  | pure b => cases e; exact ⟨s, r, hp⟩
  | panic w => cases e
  | current κ ih =>
    refine ih _ r hp ?_
    have := tokenLevel_agree.current h s r.rep
    rw [show kind0 s.toks = highLevel.current h from this]
    exact e
  | currentText κ ih =>
    obtain ⟨b, h1, e1, e2⟩ := split e
    obtain ⟨s1, r1, t1⟩ := right_currentText r e1
    exact ih b r1 (t1 ▸ hp b) e2
  | nth n κ ih =>
    obtain ⟨b, h1, e1, e2⟩ := split e
    obtain ⟨s1, r1, t1, hn⟩ := right_nth r e1
    exact ih b r1 (t1 ▸ hp b hn) e2
  | doBump kd κ ih =>
    obtain ⟨b, h1, e1, e2⟩ := split e
    obtain ⟨s1, r1⟩ := right_doBump r e1
    exact ih r1 (hp _) e2
  | start κ ih =>
    obtain ⟨b, h1, e1, e2⟩ := split e
    obtain ⟨s1, r1, t1⟩ := right_start r e1
    exact ih b r1 (t1 ▸ hp b) e2
  | complete m kd κ ih =>
    obtain ⟨b, h1, e1, e2⟩ := split e
    obtain ⟨s1, r1, t1⟩ := right_complete r e1
    exact ih b r1 (t1 ▸ hp b) e2
  | abandon m κ ih =>
    obtain ⟨b, h1, e1, e2⟩ := split e
    obtain ⟨s1, r1, t1⟩ := right_abandon r e1
    exact ih r1 (t1 ▸ hp) e2
  | precede q κ ih =>
    obtain ⟨b, h1, e1, e2⟩ := split e
    obtain ⟨s1, r1, t1⟩ := right_precede r e1
    exact ih b r1 (t1 ▸ hp b) e2
  | error msg κ ih =>
    obtain ⟨b, h1, e1, e2⟩ := split e
    obtain ⟨s1, r1, t1⟩ := right_error r hp.1 e1
    exact ih r1 (t1 ▸ hp.2) e2
  | call f κ ih =>
    obtain ⟨b, h1, e1, e2⟩ := split e
    obtain ⟨s1, r1, hb⟩ := hc f h s b h1 r e1
    exact ih b r1 (hp b _ hb) e2

theorem callN_right {T : List Tok} (hb : ∀ f k, Tl (body f) k fun r _ => Returned f r) (n : Nat) :
    CalleeRight T (callN highLevel body n) := by
  induction n with
  | zero => intro f h s a h' _ e; cases e
  | succ n ih => exact fun f h s a h' r e => run_right ih (body f) r (hb f _) e

end Verif.Parser
