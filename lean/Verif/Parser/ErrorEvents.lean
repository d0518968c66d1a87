import Verif.Parser.Sink
import Verif.Parser.Wp

set_option autoImplicit false

/-!
Nodes of kind `ERROR` in the events of the parser: behind the start of each there is an error event.

The argument is about the events only: error events are never moved or removed, and wherever the grammar
completes a node as `ERROR` it has reported an error right after the start of the node.
-/

namespace Verif.Parser

/-- The start of a node of kind `ERROR` is followed by an error. -/
def Told (evs : List Event) : Prop :=
  ∀ (i : Nat) fp, evs[i]? = some (.start .ERROR fp) → ∃ msg, evs[i + 1]? = some (.error msg)

/-- Error events stay where they are, and `Told` is kept. -/
structure Grow (evs evs' : List Event) : Prop where
  told : Told evs → Told evs'
  stay : ∀ (i : Nat) msg, evs[i]? = some (.error msg) → evs'[i]? = some (.error msg)

theorem Grow.refl (evs : List Event) : Grow evs evs := ⟨id, fun _ _ h => h⟩

theorem Grow.trans {a b c : List Event} (h1 : Grow a b) (h2 : Grow b c) : Grow a c :=
  ⟨fun h => h2.told (h1.told h), fun i m h => h2.stay i m (h1.stay i m h)⟩

theorem stay_append {evs : List Event} (es : List Event) {i : Nat} {e : Event} (h : evs[i]? = some e) :
    (evs ++ es)[i]? = some e := by
  rw [List.getElem?_append_left (List.getElem?_eq_some_iff.1 h).1, h]

theorem grow_push (evs : List Event) (e : Event) (he : ∀ fp, e ≠ .start .ERROR fp) : Grow evs (evs ++ [e]) := by
  refine ⟨fun ht i fp h => ?_, fun i m h => stay_append _ h⟩
  rw [List.getElem?_append] at h
  split at h
  · obtain ⟨msg, hm⟩ := ht i fp h
    exact ⟨msg, stay_append _ hm⟩
  · rw [List.getElem?_singleton] at h
    split at h
    · cases h; exact absurd rfl (he fp)
    · cases h

theorem grow_set {evs : List Event} {j : Nat} {k k' : Kind} {fp fp' : Option Nat}
    (hj : evs[j]? = some (.start k fp))
    (hk : Told evs → k' = .ERROR → ∃ msg, evs[j + 1]? = some (.error msg)) :
    Grow evs (evs.set j (.start k' fp')) := by
  have stay : ∀ (i : Nat) msg, evs[i]? = some (.error msg) → (evs.set j (.start k' fp'))[i]? = some (.error msg) := by
    intro i msg h
    have hne : j ≠ i := by rintro rfl; rw [hj] at h; cases h
    rw [List.getElem?_set_ne hne, h]
  refine ⟨fun ht i fp1 h => ?_, stay⟩
  by_cases hi : j = i
  · subst hi
    have hlt := (List.getElem?_eq_some_iff.1 hj).1
    rw [List.getElem?_set_self hlt] at h
    cases h
    obtain ⟨msg, hm⟩ := hk ht rfl
    exact ⟨msg, stay _ _ hm⟩
  · rw [List.getElem?_set_ne hi] at h
    obtain ⟨msg, hm⟩ := ht i fp1 h
    exact ⟨msg, stay _ _ hm⟩

theorem grow_complete {m : Marker} {kind : Kind} {evs evs' : List Event} {c : Completed}
    (h : evComplete m kind evs = some (c, evs'))
    (hk : kind = .ERROR → ∃ msg, evs[m.pos + 1]? = some (.error msg)) : Grow evs evs' := by
  unfold evComplete at h
  split at h
  · rename_i k fp hm
    cases h
    exact (grow_set hm fun _ => hk).trans (grow_push _ _ (by intro fp h; cases h))
  · cases h

theorem grow_abandon {m : Marker} {evs evs' : List Event} (h : evAbandon m evs = some evs') : Grow evs evs' := by
  unfold evAbandon at h
  split at h
  · cases h
  · split at h
    · rename_i hpos
      split at h
      · rename_i hm
        cases h
        have stay : ∀ (i : Nat) msg, evs[i]? = some (.error msg) → evs.dropLast[i]? = some (.error msg) := by
          intro i msg hi
          have hlt := (List.getElem?_eq_some_iff.1 hi).1
          have hne : i ≠ m.pos := by rintro rfl; rw [hm] at hi; cases hi
          rw [List.getElem?_dropLast, if_pos (by omega), hi]
        refine ⟨fun ht i fp hi => ?_, stay⟩
        rw [List.getElem?_dropLast] at hi
        split at hi
        · obtain ⟨msg, he⟩ := ht i fp hi
          exact ⟨msg, stay _ _ he⟩
        · cases hi
      · cases h
    · cases h
      exact .refl _

theorem grow_precede {c : Completed} {evs evs' : List Event} {m : Marker}
    (h : evPrecede c evs = some (m, evs')) : Grow evs evs' := by
  unfold evPrecede at h
  simp only at h
  split at h
  · rename_i k fp hm
    split at h
    · cases h
      refine (grow_push evs .tombstone (by intro fp h; cases h)).trans (grow_set hm fun ht hk => ?_)
      subst hk
      exact ht _ _ hm
    · cases h
  · cases h

/-- All runs of the functions are as wanted. -/
def Honest (c : (f : Fn) → PState → Out PState f.Res) : Prop :=
  ∀ f s a s', c f s = .ok a s' → Grow s.events s'.events

/-- Runs of `p` that start with events satisfying `K` are as wanted. -/
def FairIf (K : List Event → Prop) {α : Type} (p : Prog α) : Prop :=
  ∀ c, Honest c → ∀ s a s', K s.events → run lowLevel c p s = .ok a s' → Grow s.events s'.events

/-- All runs of `p` are as wanted. -/
def Fair {α : Type} (p : Prog α) : Prop := FairIf (fun _ => True) p

theorem Fair.if {α : Type} {p : Prog α} (h : Fair p) (K : List Event → Prop) : FairIf K p :=
  fun c hc s a s' _ hr => h c hc s a s' trivial hr

theorem run_bind_eq {S α β : Type} (M : Machine S) (c : (f : Fn) → S → Out S f.Res) (p : Prog α) (k : α → Prog β)
    (s : S) : run M c (p >>= k) s = (run M c p s).bind fun a s' => run M c (k a) s' := by
  show run M c (p.bind k) s = _
  have assoc : ∀ {γ δ : Type} (o : Out S γ) (f : γ → S → Out S α) (g : α → S → Out S δ),
      (o.bind f).bind g = o.bind fun a s => (f a s).bind g := by
    intro γ δ o f g; cases o <;> rfl
  induction p generalizing s with
  | pure a => rfl
  | panic w => rfl
  | current k ih => simp only [Prog.bind, run, ih]
  | currentText k ih => simp only [Prog.bind, run, ih, assoc]
  | nth n k ih => simp only [Prog.bind, run, ih, assoc]
  | doBump kind k ih => simp only [Prog.bind, run, ih, assoc]
  | start k ih => simp only [Prog.bind, run, ih, assoc]
  | complete m kind k ih => simp only [Prog.bind, run, ih, assoc]
  | abandon m k ih => simp only [Prog.bind, run, ih, assoc]
  | precede c' k ih => simp only [Prog.bind, run, ih, assoc]
  | error msg k ih => simp only [Prog.bind, run, ih, assoc]
  | call f k ih => simp only [Prog.bind, run, ih, assoc]

theorem out_bind_ok {S α β : Type} {o : Out S α} {f : α → S → Out S β} {b : β} {s' : S}
    (h : o.bind f = .ok b s') : ∃ a s, o = .ok a s ∧ f a s = .ok b s' := by
  cases o with
  | ok a s => exact ⟨a, s, rfl, h⟩
  | panic w => cases h
  | outOfFuel => cases h

theorem fair_bind {α β : Type} {p : Prog α} {k : α → Prog β} (hp : Fair p) (hk : ∀ a, Fair (k a)) : Fair (p >>= k) := by
  intro c hc s b s' _ hr
  rw [run_bind_eq] at hr
  obtain ⟨a, s1, h1, h2⟩ := out_bind_ok hr
  exact (hp c hc s a s1 trivial h1).trans (hk a c hc s1 b s' trivial h2)

/-- Once reported, an error stays. -/
def Reported (m : Marker) (evs : List Event) : Prop := ∃ msg, evs[m.pos + 1]? = some (.error msg)

/-- The node has just been started. -/
def Started (m : Marker) (evs : List Event) : Prop := evs.length = m.pos + 1

theorem fair_reported {α β : Type} {m : Marker} {p : Prog α} {k : α → Prog β} (hp : Fair p)
    (hk : ∀ a, FairIf (Reported m) (k a)) : FairIf (Reported m) (p >>= k) := by
  intro c hc s b s' ⟨msg, hm⟩ hr
  rw [run_bind_eq] at hr
  obtain ⟨a, s1, h1, h2⟩ := out_bind_ok hr
  have g := hp c hc s a s1 trivial h1
  exact g.trans (hk a c hc s1 b s' ⟨msg, g.stay _ _ hm⟩ h2)

theorem fair_pure {α : Type} (a : α) : Fair (pure a : Prog α) := by
  intro c hc s b s' _ hr; cases hr; exact .refl _

theorem fair_ret {α : Type} (a : α) : Fair (Prog.pure a) := fair_pure a

theorem fair_panic {α : Type} (w : Panic) : Fair (.panic w : Prog α) := by
  intro c hc s b s' _ hr; cases hr

theorem fair_current : Fair current := by
  intro c hc s b s' _ hr; cases hr; exact .refl _

theorem fair_currentText : Fair currentText := by
  intro c hc s b s' _ hr
  obtain ⟨a, s1, h1, h2⟩ := out_bind_ok hr
  cases h2
  simp only [lowLevel] at h1
  split at h1 <;> cases h1
  exact .refl _

theorem fair_nth (n : Nat) : Fair (nth n) := by
  intro c hc s b s' _ hr
  obtain ⟨a, s1, h1, h2⟩ := out_bind_ok hr
  cases h2
  simp only [lowLevel, pNth] at h1
  split at h1
  · split at h1
    · split at h1
      · split at h1 <;> cases h1
        exact .refl _
      · cases h1
    · cases h1
  · cases h1

theorem fair_doBump (k : Kind) : Fair (doBump k) := by
  intro c hc s b s' _ hr
  obtain ⟨a, s1, h1, h2⟩ := out_bind_ok hr
  cases h2
  simp only [lowLevel, pDoBump] at h1
  split at h1 <;> cases h1
  exact grow_push _ _ (by intro fp h; cases h)

theorem fair_start : Fair start := by
  intro c hc s b s' _ hr
  cases hr
  exact grow_push _ _ (by intro fp h; cases h)

theorem fair_error (msg : String) : Fair (error msg) := by
  intro c hc s b s' _ hr
  cases hr
  exact grow_push _ _ (by intro fp h; cases h)

theorem fair_call (f : Fn) : Fair (call f) := by
  intro c hc s b s' _ hr
  obtain ⟨a, s1, h1, h2⟩ := out_bind_ok hr
  cases h2
  exact hc f s _ _ h1

theorem complete_grows {K : List Event → Prop} {m : Marker} {kind : Kind}
    (hk : ∀ evs, K evs → kind = .ERROR → Reported m evs) : FairIf K (m.complete kind) := by
  intro c hc s b s' hK hr
  obtain ⟨a, s1, h1, h2⟩ := out_bind_ok hr
  cases h2
  simp only [lowLevel] at h1
  split at h1
  · rename_i heq
    cases h1
    exact grow_complete heq (hk _ hK)
  · cases h1

theorem fair_complete (m : Marker) {kind : Kind} (hk : kind ≠ .ERROR) : Fair (m.complete kind) :=
  complete_grows fun _ _ h => absurd h hk

theorem fair_completeError (m : Marker) : FairIf (Reported m) (m.complete .ERROR) :=
  complete_grows fun _ h _ => h

theorem fair_abandon (m : Marker) : Fair m.abandon := by
  intro c hc s b s' _ hr
  obtain ⟨a, s1, h1, h2⟩ := out_bind_ok hr
  cases h2
  simp only [lowLevel] at h1
  split at h1
  · rename_i heq
    cases h1
    exact grow_abandon heq
  · cases h1

theorem fair_precede (q : Completed) : Fair q.precede := by
  intro c hc s b s' _ hr
  obtain ⟨a, s1, h1, h2⟩ := out_bind_ok hr
  cases h2
  simp only [lowLevel] at h1
  split at h1
  · rename_i heq
    cases h1
    exact grow_precede heq
  · cases h1

/-- Behind a start it is known that the node has just been started. -/
theorem fair_started {β : Type} {k : Marker → Prog β} (hk : ∀ m, FairIf (Started m) (k m)) : Fair (start >>= k) := by
  intro c hc s b s' _ hr
  rw [run_bind_eq] at hr
  obtain ⟨m, s1, h1, h2⟩ := out_bind_ok hr
  cases h1
  refine (grow_push s.events .tombstone (by intro fp h; cases h)).trans (hk _ c hc _ b s' ?_ h2)
  simp [Started]

theorem started_error {β : Type} {m : Marker} {msg : String} {k : Unit → Prog β} (hk : FairIf (Reported m) (k ())) :
    FairIf (Started m) (error msg >>= k) := by
  intro c hc s b s' hK hr
  rw [run_bind_eq] at hr
  obtain ⟨u, s1, h1, h2⟩ := out_bind_ok hr
  cases h1
  refine (grow_push s.events (.error msg) (by intro fp h; cases h)).trans (hk c hc _ b s' ⟨msg, ?_⟩ h2)
  unfold Started at hK
  simp only
  rw [List.getElem?_append_right (by omega), hK]
  simp

theorem started_current {β : Type} {m : Marker} {k : Kind → Prog β} (hk : ∀ x, FairIf (Started m) (k x)) :
    FairIf (Started m) (current >>= k) := by
  intro c hc s b s' hK hr
  exact hk _ c hc s b s' hK hr

theorem fairIf_bind {α β : Type} {K : List Event → Prop} {p : Prog α} {k : α → Prog β} (hp : FairIf K p)
    (hk : ∀ a, Fair (k a)) : FairIf K (p >>= k) := by
  intro c hc s b s' hK hr
  rw [run_bind_eq] at hr
  obtain ⟨a, s1, h1, h2⟩ := out_bind_ok hr
  exact (hp c hc s a s1 hK h1).trans (hk a c hc s1 b s' trivial h2)

theorem fair_ite {α : Type} {c : Prop} [Decidable c] {p q : Prog α} (hp : Fair p) (hq : Fair q) :
    Fair (if c then p else q) := by
  split
  · exact hp
  · exact hq

/-! The functions of the grammar. -/

open Kind

syntax "fairr" : tactic
macro_rules | `(tactic| fairr) => `(tactic| with_reducible first
  | exact fair_pure _ | exact fair_ret _ | exact fair_panic _ | exact fair_current | exact fair_currentText | exact fair_nth _
  | exact fair_doBump _ | exact fair_start | exact fair_error _ | exact fair_call _ | exact fair_abandon _
  | exact fair_precede _)

/-- Goes through a program. -/
macro "fair" : tactic => `(tactic| repeat' (first
  | fairr
  | (with_reducible refine fair_complete _ ?_; first | decide | (split <;> decide))
  | with_reducible refine fair_bind ?_ fun _ => ?_
  | with_reducible refine fair_ite ?_ ?_
  | split))

end Verif.Parser
