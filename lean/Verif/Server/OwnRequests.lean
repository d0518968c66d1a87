import Verif.Server.Responses
import Verif.Server.Crash

/-!
C90: the requests the server sends and the responses of the client to them, for all histories, also those of clients
that do not conform.
-/

set_option autoImplicit false

namespace Verif.Server

open Verif.FileSet Verif.Vfs Verif.Db Verif.Diagnostics Verif.LineEndings Verif.Server.Spec

namespace Spec

/-- The ids of the requests among the messages sent, in order. -/
def requestsSent : List Out → List Nat
  | [] => []
  | .registerCapability id :: out => id :: requestsSent out
  | _ :: out => requestsSent out

/-- The ids of the responses received. -/
def responsesReceived : List Step → List Nat
  | [] => []
  | .message (.response id) _ :: steps => id :: responsesReceived steps
  | _ :: steps => responsesReceived steps

end Spec

open Spec

theorem requestsSent_append (a b : List Out) : requestsSent (a ++ b) = requestsSent a ++ requestsSent b := by
  induction a with
  | nil => rfl
  | cons x xs ih => cases x <;> simp [requestsSent, ih]

theorem requestsSent_published {new : List Out} (h : ∀ o ∈ new, ∃ p d v, o = .publishDiagnostics p d v) :
    requestsSent new = [] := by
  induction new with
  | nil => rfl
  | cons o os ih =>
    obtain ⟨p, d, v, rfl⟩ := h o (by simp)
    exact ih fun o ho => h o (by simp [ho])

theorem afterEvent_outgoing {env cuts} {s s' : State} (h : s.afterEvent env cuts = some s') :
    s'.outgoing = s.outgoing := by
  unfold State.afterEvent at h
  split at h
  · simp at h
  · rename_i s1 b hp
    have h1 : s1.outgoing = s.outgoing := by
      unfold State.processChanges at hp
      simp only at hp
      split at hp
      · simp only [Option.some.injEq, Prod.mk.injEq] at hp; rw [← hp.1]
      split at hp
      · simp at hp
      split at hp
      · simp at hp
      split at hp
      · simp at hp
      simp only [Option.some.injEq, Prod.mk.injEq] at hp
      rw [← hp.1]
    simp only at h
    split at h
    · simp at h
    · rename_i s2 hu
      have h2 : s2.outgoing = s1.outgoing := by
        split at hu
        · obtain ⟨subs, rfl⟩ := updateDiagnostics_calm hu; rfl
        · simp at hu; subst hu; rfl
      unfold State.publishAll at h
      split at h
      · simp at h; subst h; exact h2.trans h1
      · obtain ⟨new, rfl, _⟩ := publishFold_calm h
        exact h2.trans h1

theorem onTasks_outgoing (s : State) : s.onTasks.outgoing = s.outgoing ∧ requestsSent s.onTasks.out = requestsSent s.out := by
  unfold State.onTasks
  have gen : ∀ (ts : List Task) (s0 : State), (ts.foldl State.onTask s0).outgoing = s0.outgoing ∧
      requestsSent (ts.foldl State.onTask s0).out = requestsSent s0.out := by
    intro ts
    induction ts with
    | nil => intro s0; exact ⟨rfl, rfl⟩
    | cons t ts ih =>
      intro s0
      rw [List.foldl_cons]
      have h := ih (s0.onTask t)
      have h1 : (s0.onTask t).outgoing = s0.outgoing ∧ requestsSent (s0.onTask t).out = requestsSent s0.out := by
        unfold State.onTask
        cases t with
        | diagnostics r => exact ⟨rfl, rfl⟩
        | response id r =>
          simp only [State.respond, State.send]
          split
          · exact ⟨rfl, by simp [requestsSent_append, requestsSent]⟩
          · exact ⟨rfl, rfl⟩
      exact ⟨h.1.trans h1.1, h.2.trans h1.2⟩
  exact gen _ _

theorem respond_outgoing (s : State) (id : RequestId) (r : Reply) :
    requestsSent (s.respond id r).out = requestsSent s.out ∧ (s.respond id r).outgoing = s.outgoing := by
  simp only [State.respond, State.send]
  split
  · exact ⟨by simp [requestsSent_append, requestsSent], rfl⟩
  · exact ⟨rfl, rfl⟩

theorem onRequest_outgoing (s : State) (id : RequestId) (m : Option Bool) :
    requestsSent (s.onRequest id m).out = requestsSent s.out ∧ (s.onRequest id m).outgoing = s.outgoing := by
  unfold State.onRequest
  simp only
  split
  · exact respond_outgoing _ _ _
  · split
    · exact respond_outgoing _ _ _
    · exact respond_outgoing _ _ _
    · exact respond_outgoing _ _ _

/-- What a message does to the requests of the server. -/
theorem onMessage_outgoing {s s' : State} {m : Msg} (hm : s.onMessage m = some s') :
    requestsSent s'.out = requestsSent s.out ∧
    ((∃ id, m = .response id ∧ id ∈ s.outgoing ∧ s'.outgoing = s.outgoing.filter (· ≠ id)) ∨
      (∀ id, m ≠ .response id) ∧ s'.outgoing = s.outgoing) := by
  cases m with
  | shutdown id ok =>
    simp only [State.onMessage, Option.some.injEq] at hm
    subst hm
    obtain ⟨h1, h2⟩ := onRequest_outgoing s id (some ok)
    exact ⟨h1, Or.inr ⟨by simp, h2⟩⟩
  | otherRequest id =>
    simp only [State.onMessage, Option.some.injEq] at hm
    subst hm
    obtain ⟨h1, h2⟩ := onRequest_outgoing s id none
    exact ⟨h1, Or.inr ⟨by simp, h2⟩⟩
  | cancel id =>
    simp only [State.onMessage, Option.some.injEq] at hm
    subst hm
    unfold State.cancel State.send
    split
    · exact ⟨by simp [requestsSent_append, requestsSent], Or.inr ⟨by simp, rfl⟩⟩
    · exact ⟨rfl, Or.inr ⟨by simp, rfl⟩⟩
  | workDoneProgressCancel | exit | otherNotification =>
    simp only [State.onMessage, Option.some.injEq] at hm
    subst hm
    exact ⟨rfl, Or.inr ⟨by simp, rfl⟩⟩
  | malformed => simp [State.onMessage] at hm
  | response id =>
    simp only [State.onMessage, State.completeRequest] at hm
    split at hm
    · rename_i hi
      simp only [Option.some.injEq] at hm; subst hm; exact ⟨rfl, Or.inl ⟨id, rfl, hi, rfl⟩⟩
    · simp at hm
  | didClose uri =>
    simp only [State.onMessage, Option.some.injEq, State.didClose] at hm
    split at hm <;> subst hm <;> exact ⟨rfl, Or.inr ⟨by simp, rfl⟩⟩
  | didOpen uri v t =>
    simp only [State.onMessage, State.didOpen] at hm
    split at hm
    · simp at hm; subst hm; exact ⟨rfl, Or.inr ⟨by simp, rfl⟩⟩
    · split at hm
      · simp at hm
      · simp at hm; subst hm; exact ⟨rfl, Or.inr ⟨by simp, rfl⟩⟩
  | didChange uri v cs =>
    simp only [State.onMessage, State.didChange] at hm
    split at hm
    · simp at hm; subst hm; exact ⟨rfl, Or.inr ⟨by simp, rfl⟩⟩
    · split at hm
      · simp at hm; subst hm; exact ⟨rfl, Or.inr ⟨by simp, rfl⟩⟩
      · split at hm
        · split at hm
          · simp at hm
          · split at hm
            · simp at hm
            · split at hm
              · simp at hm
              · simp only [Option.some.injEq] at hm; subst hm; exact ⟨rfl, Or.inr ⟨by simp, rfl⟩⟩
        · simp at hm

theorem afterEvent_sent {env cuts} {s s' : State} (h : s.afterEvent env cuts = some s') :
    requestsSent s'.out = requestsSent s.out := by
  obtain ⟨new, h1, h2⟩ := (afterEvent_calm h).1.out
  rw [h1, requestsSent_append, requestsSent_published h2, List.append_nil]

/-- What a step does to the requests of the server. -/
theorem outgoing_step {env} {s s' : State} {st : Step} (hs : step env s st = .running s') :
    requestsSent s'.out = requestsSent s.out ∧ (∀ id ∈ responsesReceived [st], id ∈ s.outgoing) ∧
      ∀ id, id ∈ s'.outgoing ↔ id ∈ s.outgoing ∧ id ∉ responsesReceived [st] := by
  cases st with
  | disconnect => simp [step] at hs
  | finish i =>
    simp only [step, Outcome.running.injEq] at hs
    subst hs
    unfold State.finishJob
    split
    · split <;> exact ⟨rfl, by simp [responsesReceived], by simp [responsesReceived]⟩
    · exact ⟨rfl, by simp [responsesReceived], by simp [responsesReceived]⟩
  | deliver i =>
    simp only [step, Outcome.running.injEq] at hs
    subst hs
    unfold State.deliverJob
    split <;> exact ⟨rfl, by simp [responsesReceived], by simp [responsesReceived]⟩
  | tasks cuts =>
    simp only [step] at hs
    split at hs
    · simp at hs; subst hs; exact ⟨rfl, by simp [responsesReceived], by simp [responsesReceived]⟩
    · split at hs
      · simp at hs
      · rename_i s2 ha
        simp at hs; subst hs
        obtain ⟨h1, h2⟩ := onTasks_outgoing s
        refine ⟨(afterEvent_sent ha).trans h2, by simp [responsesReceived], fun id => ?_⟩
        rw [afterEvent_outgoing ha, h1]; simp [responsesReceived]
  | message m cuts =>
    obtain ⟨s1, hm, ha⟩ := step_message hs
    obtain ⟨h1, h2⟩ := onMessage_outgoing hm
    refine ⟨(afterEvent_sent ha).trans h1, ?_⟩
    rw [afterEvent_outgoing ha]
    rcases h2 with ⟨id, rfl, hi, ho⟩ | ⟨hn, ho⟩
    · refine ⟨by simpa [responsesReceived] using hi, fun id' => ?_⟩
      rw [ho]; simp [responsesReceived]
    · have hr : responsesReceived [.message m cuts] = [] := by
        cases m <;> first | exact absurd rfl (hn _) | rfl
      rw [hr, ho]; simp

theorem responsesReceived_cons (st : Step) (steps : List Step) :
    responsesReceived (st :: steps) = responsesReceived [st] ++ responsesReceived steps := by
  cases st with
  | message m cuts => cases m <;> simp [responsesReceived]
  | _ => simp [responsesReceived]

theorem outgoing_run {env} {steps : List Step} : ∀ {s s' : State}, runFrom env s steps = .running s' →
    requestsSent s'.out = requestsSent s.out ∧ (∀ id ∈ responsesReceived steps, id ∈ s.outgoing) ∧
      ∀ id, id ∈ s'.outgoing ↔ id ∈ s.outgoing ∧ id ∉ responsesReceived steps := by
  induction steps with
  | nil =>
    intro s s' h
    simp only [runFrom, Outcome.running.injEq] at h
    subst h
    exact ⟨rfl, by simp [responsesReceived], by simp [responsesReceived]⟩
  | cons st steps ih =>
    intro s s' h
    rw [runFrom] at h
    cases hs : step env s st with
    | running s1 =>
      rw [hs] at h
      obtain ⟨a1, a2, a3⟩ := outgoing_step hs
      obtain ⟨b1, b2, b3⟩ := ih h
      rw [responsesReceived_cons]
      refine ⟨b1.trans a1, ?_, fun id => ?_⟩
      · intro id hid
        rcases List.mem_append.1 hid with hid | hid
        · exact a2 id hid
        · exact ((a3 id).1 (b2 id hid)).1
      · rw [b3, a3, List.mem_append, not_or, and_assoc]
    | exited => rw [hs] at h; cases h
    | failed => rw [hs] at h; cases h
    | panicked => rw [hs] at h; cases h

/-- **C90.**  In every history the server sends at most one request, and it sends it exactly if the client lets it register
for saves. -/
theorem requests_sent (env : Env) (cfg : SourceRootConfig) (dyn : Bool) (steps : List Step) (s : State)
    (hrun : run env cfg dyn steps = .running s) : (requestsSent s.out).length = if dyn then 1 else 0 := by
  rw [(outgoing_run hrun).1]
  cases dyn <;> rfl

/-- **C90.**  A response of the client is accepted, and then changes nothing else, exactly if the server has sent the request
and no response to it has come before; any other response ends the server. -/
theorem response_accepted_iff (env : Env) (cfg : SourceRootConfig) (dyn : Bool) (steps : List Step) (s : State)
    (hrun : run env cfg dyn steps = .running s) (id : Nat) (cuts : Nat → Nat) :
    (id ∈ requestsSent s.out ∧ id ∉ responsesReceived steps →
      ∃ left, step env s (.message (.response id) cuts) = .running { s with outgoing := left }) ∧
    (¬ (id ∈ requestsSent s.out ∧ id ∉ responsesReceived steps) →
      step env s (.message (.response id) cuts) = .panicked) := by
  obtain ⟨h1, h2, h3⟩ := outgoing_run hrun
  obtain ⟨q, _⟩ := runFrom_quiet (quiet_init cfg dyn) hrun
  have hsent : ∀ i, i ∈ (State.init cfg dyn).outgoing ↔ i ∈ requestsSent s.out := by
    intro i; rw [h1]; cases dyn <;> simp [State.init, requestsSent]
  have hidle : ∀ s' : State, Quiet s' → s'.afterEvent env cuts = some s' := by
    intro s' q'
    unfold State.afterEvent State.processChanges Vfs.takeChanges
    simp only [q'.drained, List.isEmpty_nil, if_true, q'.noted, Bool.or_self, Bool.false_eq_true, if_false,
      State.publishAll, Collection.takeChanges, q'.published]
    congr 1
    have e1 : ({ s'.vfs with changes := [] } : Vfs VfsPath Text) = s'.vfs := by rw [← q'.drained]
    have e2 : ({ s'.memDocs with addedOrRemoved := false } : MemDocs) = s'.memDocs := by rw [← q'.noted]
    rw [e1, e2]
  have hiff : id ∈ s.outgoing ↔ id ∈ requestsSent s.out ∧ id ∉ responsesReceived steps := by
    rw [h3, hsent]
  rw [← hiff]
  constructor
  · intro hi
    refine ⟨s.outgoing.filter (· ≠ id), ?_⟩
    have hq : Quiet { s with outgoing := s.outgoing.filter (· ≠ id) } := { q with }
    simp only [step, State.onMessage, State.completeRequest, if_pos hi, Option.bind_some, hidle _ hq]
  · intro hi
    simp only [step, State.onMessage, State.completeRequest, if_neg hi, Option.bind_none]

/-- A client that answers the registration after opening a document, once and then again. -/
example : ∃ s, run sampleEnv SourceRootConfig.default true
      [.message (.didOpen (some pathA) 1 ['x']) (fun _ => 0)] = .running s ∧
    (0 ∈ requestsSent s.out ∧ 0 ∉ responsesReceived [.message (.didOpen (some pathA) 1 ['x']) (fun _ => 0)]) ∧
    ¬ (1 ∈ requestsSent s.out) := ⟨_, rfl, by decide, by decide⟩

end Verif.Server
