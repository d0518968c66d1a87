import Verif.Parser.FirstError

set_option autoImplicit false

/-!
Two runs of the parser on texts that begin with the same tokens do the same until the common tokens
are used up.
-/

namespace Verif.Parser

open Lexer

/-! ### The tokens and messages of a run -/

/-- The tokens (`none`) and the messages of a list of events, in order. -/
def evMarks (evs : List Event) : List (Option String) :=
  evs.filterMap fun
    | .token _ _ => some none
    | .error m => some (some m)
    | _ => none

theorem evMarks_append (a b : List Event) : evMarks (a ++ b) = evMarks a ++ evMarks b := List.filterMap_append ..

/-- A start event may be replaced by another. -/
theorem evMarks_set (evs : List Event) (i : Nat) (k k' : Kind) (fp fp' : Option Nat)
    (h : evs[i]? = some (.start k fp)) : evMarks (evs.set i (.start k' fp')) = evMarks evs := by
  induction evs generalizing i with
  | nil => rfl
  | cons e evs ih =>
    cases i with
    | zero => cases h; rfl
    | succ i =>
      show evMarks ([e] ++ evs.set i _) = evMarks ([e] ++ evs)
      rw [evMarks_append, evMarks_append, ih i h]

theorem evComplete_marks {m : Marker} {k : Kind} {evs evs' : List Event} {c : Completed}
    (h : evComplete m k evs = some (c, evs')) : evMarks evs' = evMarks evs := by
  unfold evComplete at h
  split at h
  · rename_i kind fp he
    cases h
    rw [evMarks_append, evMarks_set _ _ _ _ _ _ he]
    exact List.append_nil _
  · cases h

theorem evAbandon_marks {m : Marker} {evs evs' : List Event}
    (h : evAbandon m evs = some evs') : evMarks evs' = evMarks evs := by
  unfold evAbandon at h
  split at h
  · cases h
  · rename_i hne
    split at h
    · rename_i hm
      split at h
      · rename_i he
        cases h
        rw [hm] at he
        have hl : evs.getLast hne = .start .TOMBSTONE none := by
          rw [List.getElem?_eq_getElem (by have := List.length_pos_iff.2 hne; omega)] at he
          rw [List.getLast_eq_getElem]
          exact Option.some.inj he
        have := List.dropLast_concat_getLast hne
        rw [hl] at this
        conv => rhs; rw [← this, evMarks_append]
        exact (List.append_nil _).symm
      · cases h
    · cases h; rfl

theorem evPrecede_marks {c : Completed} {evs evs' : List Event} {m : Marker}
    (h : evPrecede c evs = some (m, evs')) : evMarks evs' = evMarks evs := by
  unfold evPrecede at h
  simp only at h
  split at h
  · rename_i kind fp he
    split at h
    · cases h
      rw [evMarks_set _ _ _ _ _ _ he, evMarks_append]
      exact List.append_nil _
    · cases h
  · cases h

/-- Nothing of what was reported is taken back. -/
def OnlyAdds {α : Type} (o : Out PState α) (m : List (Option String)) : Prop :=
  ∀ a s, o = .ok a s → m <+: evMarks s.events

theorem OnlyAdds.same {α : Type} {o : Out PState α} {s : PState}
    (h : ∀ a s', o = .ok a s' → evMarks s'.events = evMarks s.events) : OnlyAdds o (evMarks s.events) := by
  intro a s' e
  rw [h a s' e]
  exact List.prefix_refl _

theorem OnlyAdds.bind {α β : Type} {o : Out PState α} {f : α → PState → Out PState β} {m : List (Option String)}
    (h : OnlyAdds o m) (hf : ∀ a s, OnlyAdds (f a s) (evMarks s.events)) : OnlyAdds (o.bind f) m := by
  intro b s' e
  cases o with
  | ok a s => exact (h a s rfl).trans (hf a s b s' e)
  | panic w => cases e
  | outOfFuel => cases e

theorem pNth_events {n : Nat} {s s' : PState} {k : Kind} (h : pNth n s = .ok k s') : s'.events = s.events := by
  unfold pNth at h
  split at h
  · split at h
    · split at h
      · split at h
        · cases h; rfl
        · cases h
      · cases h
    · cases h
  · cases h

theorem onlyAdds_run {c : (f : Fn) → PState → Out PState f.Res} (hc : ∀ f s, OnlyAdds (c f s) (evMarks s.events))
    {α : Type} (p : Prog α) (s : PState) : OnlyAdds (run lowLevel c p s) (evMarks s.events) := by
  induction p generalizing s with
  | pure a => exact .same fun b s' e => by cases e; rfl
  | panic w => intro a s' e; cases e
  | current k ih => exact ih _ s
  | currentText k ih =>
    refine OnlyAdds.bind (.same fun a s' e => ?_) fun a s => ih a s
    simp only [lowLevel] at e
    split at e <;> cases e
    rfl
  | nth n k ih => exact OnlyAdds.bind (.same fun a s' e => by rw [pNth_events e]) fun a s => ih a s
  | doBump kind k ih =>
    refine OnlyAdds.bind (fun a s' e => ?_) fun _ s => ih s
    have e : pDoBump kind s = .ok a s' := e
    unfold pDoBump at e
    split at e <;> cases e
    exact evMarks_append _ _ ▸ List.prefix_append _ _
  | start k ih =>
    refine OnlyAdds.bind (.same fun a s' e => ?_) fun a s => ih a s
    cases e
    exact (evMarks_append _ _).trans (List.append_nil _)
  | complete m kind k ih =>
    refine OnlyAdds.bind (.same fun a s' e => ?_) fun a s => ih a s
    simp only [lowLevel] at e
    split at e <;> cases e
    rename_i h
    exact evComplete_marks h
  | abandon m k ih =>
    refine OnlyAdds.bind (.same fun a s' e => ?_) fun _ s => ih s
    simp only [lowLevel] at e
    split at e <;> cases e
    rename_i h
    exact evAbandon_marks h
  | precede c' k ih =>
    refine OnlyAdds.bind (.same fun a s' e => ?_) fun a s => ih a s
    simp only [lowLevel] at e
    split at e <;> cases e
    rename_i h
    exact evPrecede_marks h
  | error msg k ih =>
    refine OnlyAdds.bind (fun a s' e => ?_) fun _ s => ih s
    cases e
    exact evMarks_append _ _ ▸ List.prefix_append _ _
  | call f k ih => exact OnlyAdds.bind (hc f s) fun a s => ih a s

theorem onlyAdds_callN (n : Nat) (f : Fn) (s : PState) : OnlyAdds (callN lowLevel body n f s) (evMarks s.events) := by
  induction n generalizing f s with
  | zero => intro a s' e; cases e
  | succ n ih => exact onlyAdds_run ih (body f) s

/-! ### Two runs side by side -/

/-- Two states that differ in the tokens behind the common ones `c`, `N` being the number of tokens
read and common. -/
structure Lock (N : Nat) (s1 s2 : PState) : Prop where
  events : s1.events = s2.events
  steps : s1.steps = s2.steps
  toks : ∃ t c r1 r2 t1 t2, Stands s1.lexer t1 ∧ annot t1 = t :: c ++ r1 ∧ Stands s2.lexer t2 ∧ annot t2 = t :: c ++ r2 ∧
    (evMarks s1.events).count none + (c.length + 1) = N

/-- Both runs return the same and go on side by side, or both have used up the common tokens. -/
def Side {α : Type} (N : Nat) (o1 o2 : Out PState α) : Prop :=
  (∀ a1 s1 a2 s2, o1 = .ok a1 s1 → o2 = .ok a2 s2 → a1 = a2 ∧ Lock N s1 s2) ∨
    ∃ m : List (Option String), N ≤ m.count none ∧ OnlyAdds o1 m ∧ OnlyAdds o2 m

theorem Side.bind {α β : Type} {N : Nat} {o1 o2 : Out PState α} {f : α → PState → Out PState β} (h : Side N o1 o2)
    (hf : ∀ a s, OnlyAdds (f a s) (evMarks s.events)) (hl : ∀ a s1 s2, Lock N s1 s2 → Side N (f a s1) (f a s2)) :
    Side N (o1.bind f) (o2.bind f) := by
  rcases h with h | ⟨m, h1, h2, h3⟩
  · cases o1 with
    | ok a1 s1 =>
      cases o2 with
      | ok a2 s2 =>
        obtain ⟨rfl, hk⟩ := h a1 s1 a2 s2 rfl rfl
        exact hl a1 s1 s2 hk
      | panic w => exact .inl fun _ _ _ _ _ e => by cases e
      | outOfFuel => exact .inl fun _ _ _ _ _ e => by cases e
    | panic w => exact .inl fun _ _ _ _ e => by cases e
    | outOfFuel => exact .inl fun _ _ _ _ e => by cases e
  · exact .inr ⟨m, h1, h2.bind hf, h3.bind hf⟩

theorem Lock.quiet {N : Nat} {s1 s2 : PState} (h : Lock N s1 s2) (evs : List Event) (n : Nat)
    (hm : evMarks evs = evMarks s1.events) :
    Lock N { s1 with events := evs, steps := n } { s2 with events := evs, steps := n } := by
  obtain ⟨t, c, r1, r2, t1, t2, h1, h2, h3, h4, h5⟩ := h.toks
  exact ⟨rfl, rfl, t, c, r1, r2, t1, t2, h1, h2, h3, h4, by simp only [hm]; exact h5⟩

theorem Lock.error {N : Nat} {s1 s2 : PState} (h : Lock N s1 s2) (msg : String) :
    Lock N { s1 with events := s1.events ++ [.error msg] } { s2 with events := s2.events ++ [.error msg] } := by
  obtain ⟨t, c, r1, r2, t1, t2, h1, h2, h3, h4, h5⟩ := h.toks
  refine ⟨by simp only [h.events], h.steps, t, c, r1, r2, t1, t2, h1, h2, h3, h4, ?_⟩
  simp only [evMarks_append, List.count_append]
  exact h5

theorem Lock.current {N : Nat} {s1 s2 : PState} (h : Lock N s1 s2) : lowLevel.current s1 = lowLevel.current s2 := by
  obtain ⟨t, c, r1, r2, t1, t2, h1, h2, h3, h4, _⟩ := h.toks
  show s1.lexer.token.kind = s2.lexer.token.kind
  rw [h1.kind, h3.kind, ← kind0_annot, ← kind0_annot, h2, h4]
  rfl

theorem Lock.currentText {N : Nat} {s1 s2 : PState} (h : Lock N s1 s2) :
    Side N (lowLevel.currentText s1) (lowLevel.currentText s2) := by
  obtain ⟨t, c, r1, r2, t1, t2, h1, h2, h3, h4, _⟩ := h.toks
  obtain ⟨_, _, _, _, _, _, e1⟩ := h1.tail
  obtain ⟨_, _, _, _, _, _, e2⟩ := h3.tail
  refine .inl fun a1 s1' a2 s2' g1 g2 => ?_
  simp only [lowLevel, e1] at g1
  simp only [lowLevel, e2] at g2
  cases g1
  cases g2
  refine ⟨?_, h⟩
  rw [← text0_annot, ← text0_annot, h2, h4]
  rfl

theorem Lock.nth {N : Nat} {s1 s2 : PState} (h : Lock N s1 s2) (n : Nat) :
    Side N (lowLevel.nth n s1) (lowLevel.nth n s2) := by
  obtain ⟨t, c, r1, r2, t1, t2, h1, h2, h3, h4, _⟩ := h.toks
  have key : ∀ k1 k2, s1.lexer.lookaheadNth n = some k1 → s2.lexer.lookaheadNth n = some k2 → n ≤ 2 → k1.kind = k2.kind := by
    intro k1 k2 e1 e2 hn
    match n, hn with
    | 0, _ =>
      cases e1; cases e2
      exact h.current
    | 1, _ =>
      obtain ⟨x1, g1, w1⟩ := h1.lookahead
      obtain ⟨x2, g2, w2⟩ := h3.lookahead
      have e1 : s1.lexer.lookahead = some k1 := e1
      have e2 : s2.lexer.lookahead = some k2 := e2
      rw [g1] at e1; rw [g2] at e2
      cases e1; cases e2
      rw [w1, w2, ← kind1_annot, ← kind1_annot, h2, h4]
      rfl
    | 2, _ =>
      obtain ⟨x1, g1, w1⟩ := h1.lookahead2
      obtain ⟨x2, g2, w2⟩ := h3.lookahead2
      rw [g1] at e1; rw [g2] at e2
      cases e1; cases e2
      rw [w1, w2, ← kind2_annot, ← kind2_annot, h2, h4]
      rfl
  refine .inl fun a1 s1' a2 s2' g1 g2 => ?_
  have g1 : pNth n s1 = .ok a1 s1' := g1
  have g2 : pNth n s2 = .ok a2 s2' := g2
  unfold pNth at g1 g2
  by_cases hn3 : n ≤ 3
  · rw [if_pos hn3] at g1 g2
    split at g1
    · split at g2
      · split at g1
        · rename_i hn
          rw [if_pos hn] at g2
          split at g1
          · rename_i k1 e1
            cases g1
            split at g2
            · rename_i k2 e2
              cases g2
              refine ⟨key k1 k2 e1 e2 hn, ?_⟩
              have := h.quiet s1.events (s1.steps + 1) rfl
              have es := h.steps
              have ee := h.events
              rw [← es]
              obtain ⟨lx2, ev2, st2⟩ := s2
              cases ee
              exact this
            · cases g2
          · cases g1
        · cases g1
      · cases g2
    · cases g1
  · rw [if_neg hn3] at g1
    cases g1

theorem Lock.bump {N : Nat} {s1 s2 : PState} (h : Lock N s1 s2) (kind : Kind) :
    Side N (lowLevel.doBump kind s1) (lowLevel.doBump kind s2) := by
  obtain ⟨t, c, r1, r2, t1, t2, h1, h2, h3, h4, h5⟩ := h.toks
  obtain ⟨x1, b1, g1⟩ := h1.bump
  obtain ⟨x2, b2, g2⟩ := h3.bump
  have e1 : lowLevel.doBump kind s1 = .ok () { s1 with lexer := x1, events := s1.events ++ [.token kind 1] } := by
    show pDoBump kind s1 = _
    unfold pDoBump
    rw [b1]
  have e2 : lowLevel.doBump kind s2 = .ok () { s2 with lexer := x2, events := s1.events ++ [.token kind 1] } := by
    show pDoBump kind s2 = _
    unfold pDoBump
    rw [b2, h.events]
  rw [e1, e2]
  have hm : (evMarks (s1.events ++ [.token kind 1])).count none = (evMarks s1.events).count none + 1 := by
    rw [evMarks_append, List.count_append]; rfl
  cases c with
  | nil =>
    refine .inr ⟨evMarks (s1.events ++ [.token kind 1]), ?_, ?_, ?_⟩
    · rw [hm, ← h5]; exact Nat.le_refl _
    · intro a s e; cases e; exact List.prefix_refl _
    · intro a s e; cases e; exact List.prefix_refl _
  | cons t' c =>
    refine .inl fun a1 s1' a2 s2' f1 f2 => ?_
    cases f1; cases f2
    refine ⟨rfl, rfl, h.steps, t', c, r1, r2, _, _, g1, ?_, g2, ?_, ?_⟩
    · rw [annot_skip, ← tail_annot, h2]; rfl
    · rw [annot_skip, ← tail_annot, h4]; rfl
    · simp only [hm]
      simp only [List.length_cons] at h5
      omega

/-- An operation on the events only. -/
theorem Lock.local {N : Nat} {s1 s2 : PState} (h : Lock N s1 s2) {β : Type} (g : List Event → Option (β × List Event))
    (hg : ∀ b evs, g s1.events = some (b, evs) → evMarks evs = evMarks s1.events) {o1 o2 : Out PState β}
    (e1 : ∀ a s, o1 = .ok a s → ∃ evs, g s1.events = some (a, evs) ∧ s = { s1 with events := evs })
    (e2 : ∀ a s, o2 = .ok a s → ∃ evs, g s2.events = some (a, evs) ∧ s = { s2 with events := evs }) : Side N o1 o2 := by
  refine .inl fun a1 s1' a2 s2' f1 f2 => ?_
  obtain ⟨v1, w1, rfl⟩ := e1 a1 s1' f1
  obtain ⟨v2, w2, rfl⟩ := e2 a2 s2' f2
  rw [← h.events, w1] at w2
  cases w2
  refine ⟨rfl, ?_⟩
  have := h.quiet v1 s1.steps (hg _ _ w1)
  rw [h.steps] at this
  have es := h.steps
  obtain ⟨lx1, ev1, st1⟩ := s1
  cases es
  exact this

theorem side_run {N : Nat} {c : (f : Fn) → PState → Out PState f.Res} (hg : ∀ f s, OnlyAdds (c f s) (evMarks s.events))
    (hc : ∀ f s1 s2, Lock N s1 s2 → Side N (c f s1) (c f s2)) {α : Type} (p : Prog α) (s1 s2 : PState) (h : Lock N s1 s2) :
    Side N (run lowLevel c p s1) (run lowLevel c p s2) := by
  induction p generalizing s1 s2 with
  | pure a => exact .inl fun a1 s1' a2 s2' e1 e2 => by cases e1; cases e2; exact ⟨rfl, h⟩
  | panic w => exact .inl fun _ _ _ _ e => by cases e
  | current k ih =>
    show Side N (run lowLevel c (k (lowLevel.current s1)) s1) (run lowLevel c (k (lowLevel.current s2)) s2)
    rw [h.current]
    exact ih _ s1 s2 h
  | currentText k ih => exact h.currentText.bind (fun a s => onlyAdds_run hg (k a) s) fun a s1 s2 h => ih a s1 s2 h
  | nth n k ih => exact (h.nth n).bind (fun a s => onlyAdds_run hg (k a) s) fun a s1 s2 h => ih a s1 s2 h
  | doBump kind k ih => exact (h.bump kind).bind (fun _ s => onlyAdds_run hg k s) fun _ s1 s2 h => ih s1 s2 h
  | start k ih =>
    refine Side.bind (h.local (fun evs => some (evStart evs)) ?_ ?_ ?_) (fun a s => onlyAdds_run hg (k a) s) fun a s1 s2 h => ih a s1 s2 h
    · intro b evs e
      cases e
      exact (evMarks_append _ _).trans (List.append_nil _)
    · intro a s e; cases e; exact ⟨_, rfl, rfl⟩
    · intro a s e; cases e; exact ⟨_, rfl, rfl⟩
  | complete m kind k ih =>
    refine Side.bind (h.local (evComplete m kind) ?_ ?_ ?_) (fun a s => onlyAdds_run hg (k a) s) fun a s1 s2 h => ih a s1 s2 h
    · intro b evs e; exact evComplete_marks e
    · intro a s e
      simp only [lowLevel] at e
      split at e <;> cases e
      rename_i hh
      exact ⟨_, hh, rfl⟩
    · intro a s e
      simp only [lowLevel] at e
      split at e <;> cases e
      rename_i hh
      exact ⟨_, hh, rfl⟩
  | abandon m k ih =>
    refine Side.bind (h.local (fun evs => (evAbandon m evs).map fun e => ((), e)) ?_ ?_ ?_) (fun _ s => onlyAdds_run hg k s)
      fun _ s1 s2 h => ih s1 s2 h
    · intro b evs e
      obtain ⟨evs', e', e2⟩ := Option.map_eq_some_iff.1 e
      cases e2
      exact evAbandon_marks e'
    · intro a s e
      simp only [lowLevel] at e
      split at e <;> cases e
      rename_i hh
      exact ⟨_, by rw [hh]; rfl, rfl⟩
    · intro a s e
      simp only [lowLevel] at e
      split at e <;> cases e
      rename_i hh
      exact ⟨_, by rw [hh]; rfl, rfl⟩
  | precede c' k ih =>
    refine Side.bind (h.local (evPrecede c') ?_ ?_ ?_) (fun a s => onlyAdds_run hg (k a) s) fun a s1 s2 h => ih a s1 s2 h
    · intro b evs e; exact evPrecede_marks e
    · intro a s e
      simp only [lowLevel] at e
      split at e <;> cases e
      rename_i hh
      exact ⟨_, hh, rfl⟩
    · intro a s e
      simp only [lowLevel] at e
      split at e <;> cases e
      rename_i hh
      exact ⟨_, hh, rfl⟩
  | error msg k ih =>
    refine Side.bind (.inl ?_) (fun _ s => onlyAdds_run hg k s) fun _ s1 s2 h => ih s1 s2 h
    intro a1 s1' a2 s2' e1 e2
    cases e1; cases e2
    exact ⟨rfl, h.error msg⟩
  | call f k ih => exact (hc f s1 s2 h).bind (fun a s => onlyAdds_run hg (k a) s) fun a s1 s2 h => ih a s1 s2 h

theorem side_callN (N n : Nat) (f : Fn) (s1 s2 : PState) (h : Lock N s1 s2) :
    Side N (callN lowLevel body n f s1) (callN lowLevel body n f s2) := by
  induction n generalizing f s1 s2 with
  | zero => exact .inl fun _ _ _ _ e => by cases e
  | succ n ih => exact side_run (fun f s => onlyAdds_callN n f s) (fun f s1 s2 h => ih f s1 s2 h) (body f) s1 s2 h

end Verif.Parser
