import Verif.OpQueue.Model

set_option autoImplicit false

/-!
C44: at most one operation runs at a time and no request is lost.
-/

namespace Verif.OpQueue

variable {Output : Type}

/-! Specification: what a history of events says, oldest event first. -/

namespace Spec

def Event.isStart : Event Output → Bool
  | .answered true => true
  | _ => false

def Event.isFinish : Event Output → Bool
  | .finished _ => true
  | _ => false

def Event.isRequest : Event Output → Bool
  | .requested => true
  | _ => false

/-- An operation is running: some start has no finish after it. -/
def Running (h : List (Event Output)) : Prop :=
  ∃ before e after, h = before ++ e :: after ∧ Event.isStart e = true ∧
    ∀ x ∈ after, Event.isFinish x = false

/-- A request is waiting: some request has no start after it. -/
def Waiting (h : List (Event Output)) : Prop :=
  ∃ before e after, h = before ++ e :: after ∧ Event.isRequest e = true ∧
    ∀ x ∈ after, Event.isStart x = false

/-- The result of the latest operation that finished. -/
def lastResult (default : Output) (h : List (Event Output)) : Output :=
  h.foldl (fun r e => match e with | .finished x => x | _ => r) default

end Spec

open Spec

theorem Running_concat (h : List (Event Output)) (e : Event Output) :
    Running (h ++ [e]) ↔ Event.isStart e = true ∨ (Running h ∧ Event.isFinish e = false) := by
  constructor
  · rintro ⟨b, x, a, he, hx, ha⟩
    rcases List.eq_nil_or_concat a with rfl | ⟨a', y, rfl⟩
    · have := List.append_inj' he (by simp)
      simp at this
      left; rw [this.2]; exact hx
    · have he' : h ++ [e] = (b ++ x :: a') ++ [y] := by simpa using he
      have := List.append_inj' he' (by simp)
      simp at this
      right
      refine ⟨⟨b, x, a', this.1, hx, fun z hz => ha z (by simp [hz])⟩, ?_⟩
      rw [this.2]; exact ha y (by simp)
  · rintro (hs | ⟨⟨b, x, a, rfl, hx, ha⟩, hf⟩)
    · exact ⟨h, e, [], rfl, hs, by simp⟩
    · refine ⟨b, x, a ++ [e], by simp, hx, ?_⟩
      intro z hz
      rcases List.mem_append.1 hz with hz | hz
      · exact ha z hz
      · simp at hz; rw [hz]; exact hf

theorem Waiting_concat (h : List (Event Output)) (e : Event Output) :
    Waiting (h ++ [e]) ↔ Event.isRequest e = true ∨ (Waiting h ∧ Event.isStart e = false) := by
  constructor
  · rintro ⟨b, x, a, he, hx, ha⟩
    rcases List.eq_nil_or_concat a with rfl | ⟨a', y, rfl⟩
    · have := List.append_inj' he (by simp)
      simp at this
      left; rw [this.2]; exact hx
    · have he' : h ++ [e] = (b ++ x :: a') ++ [y] := by simpa using he
      have := List.append_inj' he' (by simp)
      simp at this
      right
      refine ⟨⟨b, x, a', this.1, hx, fun z hz => ha z (by simp [hz])⟩, ?_⟩
      rw [this.2]; exact ha y (by simp)
  · rintro (hs | ⟨⟨b, x, a, rfl, hx, ha⟩, hf⟩)
    · exact ⟨h, e, [], rfl, hs, by simp⟩
    · refine ⟨b, x, a ++ [e], by simp, hx, ?_⟩
      intro z hz
      rcases List.mem_append.1 hz with hz | hz
      · exact ha z hz
      · simp at hz; rw [hz]; exact hf

theorem not_Running_nil : ¬ Running ([] : List (Event Output)) := by
  rintro ⟨b, x, a, he, _⟩; simp at he

theorem not_Waiting_nil : ¬ Waiting ([] : List (Event Output)) := by
  rintro ⟨b, x, a, he, _⟩; simp at he

/-- The queue knows what its history says. -/
structure Knows (default : Output) (h : List (Event Output)) (q : Queue Output) : Prop where
  running : q.opInProgress = true ↔ Running h
  waiting : q.opRequested = true ↔ Waiting h
  result : q.lastOpResult = lastResult default h

theorem knows_new (default : Output) : Knows default [] (Queue.new default) :=
  ⟨by simp [Queue.new, not_Running_nil], by simp [Queue.new, not_Waiting_nil], rfl⟩

theorem lastResult_concat (default : Output) (h : List (Event Output)) (e : Event Output) :
    lastResult default (h ++ [e]) = match e with | .finished x => x | _ => lastResult default h := by
  simp [lastResult, List.foldl_append]

theorem call_knows {default : Output} {h : List (Event Output)} {q q' : Queue Output} {c : Call Output}
    {e : Event Output} (hk : Knows default h q) (hc : q.call c = some (e, q')) :
    Knows default (h ++ [e]) q' := by
  cases c with
  | request =>
    simp only [Queue.call, Option.some.injEq, Prod.mk.injEq] at hc
    obtain ⟨rfl, rfl⟩ := hc
    refine ⟨?_, ?_, ?_⟩
    · rw [Running_concat]; simp [Queue.requestOp, Event.isStart, Event.isFinish, hk.running]
    · rw [Waiting_concat]; simp [Queue.requestOp, Event.isRequest]
    · rw [lastResult_concat]; exact hk.result
  | shouldStart =>
    simp only [Queue.call, Option.some.injEq, Prod.mk.injEq] at hc
    obtain ⟨rfl, rfl⟩ := hc
    have h1 := hk.running
    have h2 := hk.waiting
    refine ⟨?_, ?_, ?_⟩
    · rw [Running_concat]
      cases hp : q.opInProgress <;> cases hr : q.opRequested <;> rw [hp] at h1 <;>
        simp [Queue.shouldStartOp, hp, hr, Event.isStart, Event.isFinish, ← h1]
    · rw [Waiting_concat]
      cases hp : q.opInProgress <;> cases hr : q.opRequested <;> rw [hr] at h2 <;>
        simp [Queue.shouldStartOp, hp, hr, Event.isStart, Event.isRequest, ← h2]
    · rw [lastResult_concat]
      simp only [Queue.shouldStartOp]
      split <;> exact hk.result
  | completed r =>
    simp only [Queue.call, Queue.opCompleted] at hc
    split at hc
    · simp only [Option.map_some, Option.some.injEq, Prod.mk.injEq] at hc
      obtain ⟨rfl, rfl⟩ := hc
      refine ⟨?_, ?_, ?_⟩
      · rw [Running_concat]; simp [Event.isStart, Event.isFinish]
      · rw [Waiting_concat]; simp [Event.isRequest, Event.isStart, hk.waiting]
      · rw [lastResult_concat]
    · cases hc

theorem calls_knows {default : Output} (cs : List (Call Output)) :
    ∀ {h es : List (Event Output)} {q q' : Queue Output}, Knows default h q →
      q.calls cs = some (es, q') → Knows default (h ++ es) q' := by
  induction cs with
  | nil =>
    intro h es q q' hk hc
    simp only [Queue.calls, Option.some.injEq, Prod.mk.injEq] at hc
    obtain ⟨rfl, rfl⟩ := hc
    simpa using hk
  | cons c cs ih =>
    intro h es q q' hk hc
    simp only [Queue.calls] at hc
    split at hc
    · cases hc
    · next e q1 h1 =>
      obtain ⟨⟨es', q''⟩, h2, h3⟩ := Option.map_eq_some_iff.1 hc
      simp only [Prod.mk.injEq] at h3
      obtain ⟨rfl, rfl⟩ := h3
      have := ih (call_knows hk h1) h2
      simpa using this

/-- After every sequence of calls, an operation may start exactly if none is running and a request
waits. -/
theorem starts_iff (default : Output) (cs : List (Call Output)) (h : List (Event Output))
    (q : Queue Output) (hc : (Queue.new default).calls cs = some (h, q)) :
    q.shouldStartOp.1 = true ↔ ¬ Running h ∧ Waiting h := by
  have hk := calls_knows cs (knows_new default) hc
  rw [List.nil_append] at hk
  have h1 := hk.running
  have h2 := hk.waiting
  simp only [Queue.shouldStartOp]
  cases hp : q.opInProgress <;> cases hr : q.opRequested <;> rw [hp] at h1 <;> rw [hr] at h2 <;>
    simp [← h1, ← h2, hr]

/-- Reporting completion panics exactly if no operation is running. -/
theorem completed_panics_iff (default : Output) (cs : List (Call Output)) (h : List (Event Output))
    (q : Queue Output) (hc : (Queue.new default).calls cs = some (h, q)) (r : Output) :
    q.opCompleted r = none ↔ ¬ Running h := by
  have hk := calls_knows cs (knows_new default) hc
  rw [List.nil_append] at hk
  rw [← hk.running]
  simp [Queue.opCompleted]

/-- The queue reports the result of the latest operation that finished. -/
theorem last_result (default : Output) (cs : List (Call Output)) (h : List (Event Output))
    (q : Queue Output) (hc : (Queue.new default).calls cs = some (h, q)) :
    q.lastOpResult = lastResult default h ∧ (q.opInProgress = true ↔ Running h) ∧
    (q.opRequested = true ↔ Waiting h) := by
  have hk := calls_knows cs (knows_new default) hc
  rw [List.nil_append] at hk
  exact ⟨hk.result, hk.running, hk.waiting⟩

/-- In every history the queue produces operations do not overlap: between two starts there is a
finish. -/
theorem no_two_operations (default : Output) (cs : List (Call Output)) (h : List (Event Output))
    (q : Queue Output) (hc : (Queue.new default).calls cs = some (h, q)) (a b c : List (Event Output))
    (he : h = a ++ .answered true :: (b ++ .answered true :: c)) :
    ∃ x ∈ b, Event.isFinish x = true := by
  have split : ∀ (cs : List (Call Output)) (q q' : Queue Output) (p : List (Event Output)) (e : Event Output)
      (s : List (Event Output)), q.calls cs = some (p ++ e :: s, q') →
      ∃ cs1 cs2 c1 q1 q2, cs = cs1 ++ c1 :: cs2 ∧ q.calls cs1 = some (p, q1) ∧ q1.call c1 = some (e, q2) := by
    intro cs
    induction cs with
    | nil => intro q q' p e s hh; simp [Queue.calls] at hh
    | cons c cs ih =>
      intro q q' p e s hh
      simp only [Queue.calls] at hh
      split at hh
      · cases hh
      · next e1 q1 h1 =>
        obtain ⟨⟨es', q''⟩, h2, h3⟩ := Option.map_eq_some_iff.1 hh
        simp only [Prod.mk.injEq] at h3
        cases p with
        | nil =>
          simp only [List.nil_append, List.cons.injEq] at h3
          exact ⟨[], cs, c, q, q1, rfl, rfl, by rw [h1, h3.1.1]⟩
        | cons x p =>
          simp only [List.cons_append, List.cons.injEq] at h3
          obtain ⟨⟨rfl, rfl⟩, rfl⟩ := h3
          obtain ⟨cs1, cs2, c1, q3, q4, rfl, h4, h5⟩ := ih q1 q'' p e s h2
          refine ⟨c :: cs1, cs2, c1, q3, q4, rfl, ?_, h5⟩
          simp [Queue.calls, h1, h4]
  rw [he] at hc
  rw [show a ++ Event.answered true :: (b ++ .answered true :: c)
    = (a ++ .answered true :: b) ++ .answered true :: c by simp] at hc
  obtain ⟨cs1, cs2, c1, q1, q2, rfl, h1, h2⟩ := split _ _ _ _ _ _ hc
  have hnr : ¬ Running (a ++ Event.answered true :: b) := by
    cases c1 with
    | request => simp [Queue.call] at h2
    | shouldStart =>
      simp only [Queue.call, Option.some.injEq, Prod.mk.injEq, Event.answered.injEq] at h2
      exact ((starts_iff default cs1 _ q1 h1).1 h2.1).1
    | completed r =>
      simp only [Queue.call, Option.map_eq_some_iff] at h2
      obtain ⟨_, _, h3⟩ := h2
      simp at h3
  apply Classical.byContradiction
  intro hno
  apply hnr
  refine ⟨a, _, b, rfl, rfl, ?_⟩
  intro x hx
  cases hf : Event.isFinish x with
  | false => rfl
  | true => exact absurd ⟨x, hx, hf⟩ hno

/-- A request made while an operation runs leads to one start after it finishes, not two. -/
example : ((Queue.new (0 : Nat)).calls [.request, .shouldStart, .request, .request, .shouldStart, .completed 7,
    .shouldStart, .completed 8, .shouldStart]).map
      (fun x => (x.1.map fun e => match e with | .answered b => some b | _ => none, x.2.lastOpResult))
    = some ([none, some true, none, none, some false, none, some true, none, some false], 8) := by decide

end Verif.OpQueue
