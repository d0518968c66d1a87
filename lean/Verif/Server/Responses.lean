import Verif.Server.Sync

/-!
Requests and responses (C24), shutdown and exit (C25), cancellation (C27), for all histories,
also those of clients that do not conform.
-/

set_option autoImplicit false

namespace Verif.Server

open Verif.FileSet Verif.Vfs Verif.Db Verif.Diagnostics Verif.LineEndings Verif.Server.Spec

/-! ## Specification -/

namespace Spec

/-- The ids of the requests received, in order. -/
def requestIds : List Step → List RequestId
  | [] => []
  | .message (.shutdown id _) _ :: steps => id :: requestIds steps
  | .message (.otherRequest id) _ :: steps => id :: requestIds steps
  | _ :: steps => requestIds steps

/-- The responses among the messages sent, in order. -/
def responses : List Out → List (RequestId × Reply)
  | [] => []
  | .response id reply :: out => (id, reply) :: responses out
  | _ :: out => responses out

/-- The replies the protocol asks for: `down` is whether a shutdown was accepted before. -/
def replies (down : Bool) : List Step → List Reply
  | [] => []
  | .message (.shutdown _ paramsOk) _ :: steps =>
    (if down then .invalidRequest else if paramsOk then .ok else .invalidParams) :: replies (down || paramsOk) steps
  | .message (.otherRequest _) _ :: steps => (if down then .invalidRequest else .methodNotFound) :: replies down steps
  | _ :: steps => replies down steps

end Spec

open Spec

theorem responses_append (a b : List Out) : responses (a ++ b) = responses a ++ responses b := by
  induction a with
  | nil => rfl
  | cons x xs ih => cases x <;> simp [responses, ih]

/-! ## Invariant -/

/-- Nothing is pending, no task carries a response, and the turn is complete. -/
structure Quiet (s : State) : Prop where
  incoming : s.incoming = []
  channel : ∀ t ∈ s.channel, ∃ r, t = .diagnostics r
  jobs : ∀ t, .finished t ∈ s.jobs → ∃ r, t = .diagnostics r
  drained : s.vfs.changes = []
  published : s.diagnostics.changes = []
  noted : s.memDocs.addedOrRemoved = false

theorem compute_diagnostics {env e snap subs t} (h : compute env e snap subs = some t) : ∃ r, t = .diagnostics r := by
  unfold compute at h
  split at h
  · simp at h
  · simp at h; exact ⟨_, h.symm⟩

theorem finished_cancelRunning {env e cuts} {jobs : List Job} {i t} (h : Job.finished t ∈ cancelRunning env e cuts jobs i) :
    .finished t ∈ jobs ∨ ∃ r, t = .diagnostics r := by
  induction jobs generalizing i with
  | nil => simp [cancelRunning] at h
  | cons j js ih =>
    cases j with
    | finished t' =>
      rw [cancelRunning] at h
      rcases List.mem_cons.1 h with h | h
      · left; rw [h]; simp
      · rcases ih h with h | h
        · left; simp [h]
        · exact Or.inr h
    | running subs snap =>
      rw [cancelRunning] at h
      split at h
      · rcases ih h with h | h
        · left; simp [h]
        · exact Or.inr h
      · rename_i hc
        rcases List.mem_cons.1 h with h | h
        · right; simp at h; rw [h]; exact compute_diagnostics hc
        · rcases ih h with h | h
          · left; simp [h]
          · exact Or.inr h

/-- What a turn's end does to the parts that matter here. -/
structure Calm (s s' : State) : Prop where
  incoming : s'.incoming = s.incoming
  channel : s'.channel = s.channel
  jobs : ∀ t, .finished t ∈ s'.jobs → .finished t ∈ s.jobs ∨ ∃ r, t = .diagnostics r
  down : s'.shutdownRequested = s.shutdownRequested
  out : ∃ new, s'.out = s.out ++ new ∧ ∀ o ∈ new, ∃ p d v, o = .publishDiagnostics p d v

theorem publish_calm {s s' : State} {f : Nat} (h : s.publish f = some s') :
    ∃ new, s' = { s with out := s.out ++ new } ∧ ∀ o ∈ new, ∃ p d v, o = .publishDiagnostics p d v := by
  unfold State.publish at h
  split at h
  · simp at h
  split at h
  · simp at h
  split at h
  · simp at h; subst h; exact ⟨[], by simp, by simp⟩
  split at h
  · simp at h
  split at h
  · simp only [Option.some.injEq] at h
    subst h
    exact ⟨[_], rfl, by simp⟩
  · simp at h

theorem publishFold_calm {files : List Nat} {s s' : State} (h : files.foldlM State.publish s = some s') :
    ∃ new, s' = { s with out := s.out ++ new } ∧ ∀ o ∈ new, ∃ p d v, o = .publishDiagnostics p d v := by
  induction files generalizing s with
  | nil => simp at h; subst h; exact ⟨[], by simp, by simp⟩
  | cons f fs ih =>
    rw [List.foldlM_cons] at h
    cases hp : s.publish f with
    | none => rw [hp] at h; simp at h
    | some s1 =>
      rw [hp] at h
      obtain ⟨n1, rfl, h1⟩ := publish_calm hp
      obtain ⟨n2, rfl, h2⟩ := ih h
      refine ⟨n1 ++ n2, by simp, ?_⟩
      intro o ho
      rcases List.mem_append.1 ho with ho | ho
      · exact h1 o ho
      · exact h2 o ho

theorem processChanges_calm {env cuts} {s s' : State} {b} (h : s.processChanges env cuts = some (s', b)) :
    Calm s s' ∧ s'.vfs.changes = [] ∧ s'.out = s.out ∧ s'.diagnostics = s.diagnostics ∧
      s'.sourceRootConfig = s.sourceRootConfig := by
  unfold State.processChanges at h
  simp only at h
  split at h
  · simp only [Option.some.injEq, Prod.mk.injEq] at h
    obtain ⟨rfl, _⟩ := h
    exact ⟨⟨rfl, rfl, fun t h => Or.inl h, rfl, [], by simp, by simp⟩, rfl, rfl, rfl, rfl⟩
  · split at h
    · simp at h
    · split at h
      · simp at h
      · split at h
        · simp at h
        · simp only [Option.some.injEq, Prod.mk.injEq] at h
          obtain ⟨rfl, _⟩ := h
          exact ⟨⟨rfl, rfl, fun t h => finished_cancelRunning h, rfl, [], by simp, by simp⟩, rfl, rfl, rfl, rfl⟩

theorem updateDiagnostics_calm {s s' : State} (h : s.updateDiagnostics = some s') :
    ∃ subs, s' = { s with jobs := s.jobs ++ [.running subs s.db] } := by
  unfold State.updateDiagnostics at h
  split at h
  · simp at h
  · simp at h; exact ⟨_, h.symm⟩

theorem afterEvent_calm {env cuts} {s s' : State} (h : s.afterEvent env cuts = some s') :
    Calm s s' ∧ s'.vfs.changes = [] ∧ s'.diagnostics.changes = [] ∧ s'.memDocs.addedOrRemoved = false := by
  unfold State.afterEvent at h
  split at h
  · simp at h
  · rename_i s1 b hp
    obtain ⟨hc, hv, ho, _⟩ := processChanges_calm hp
    simp only at h
    split at h
    · simp at h
    · rename_i s2 hu
      have h2 : Calm s s2 ∧ s2.vfs.changes = [] ∧ s2.memDocs.addedOrRemoved = false ∧ s2.out = s.out := by
        split at hu
        · obtain ⟨subs, rfl⟩ := updateDiagnostics_calm hu
          refine ⟨⟨hc.incoming, hc.channel, fun t ht => ?_, hc.down, [], by simp [ho], by simp⟩, hv, rfl, ho⟩
          simp at ht
          exact hc.jobs t ht
        · simp at hu; subst hu
          exact ⟨⟨hc.incoming, hc.channel, hc.jobs, hc.down, [], by simp [ho], by simp⟩, hv, rfl, ho⟩
      obtain ⟨h2, hv2, hn2, ho2⟩ := h2
      unfold State.publishAll at h
      split at h
      · rename_i hd
        simp at h; subst h
        refine ⟨h2, hv2, ?_, hn2⟩
        unfold Collection.takeChanges at hd
        split at hd
        · rename_i he; simpa using he
        · simp at hd
      · rename_i hd
        obtain ⟨new, rfl, hnew⟩ := publishFold_calm h
        refine ⟨⟨h2.incoming, h2.channel, h2.jobs, h2.down, new, by simp [ho2], hnew⟩, hv2, ?_, hn2⟩
        unfold Collection.takeChanges at hd
        split at hd
        · simp at hd
        · simp at hd; rw [← hd.1]

theorem responses_published {new : List Out} (h : ∀ o ∈ new, ∃ p d v, o = .publishDiagnostics p d v) :
    responses new = [] := by
  induction new with
  | nil => rfl
  | cons o os ih =>
    obtain ⟨p, d, v, rfl⟩ := h o (by simp)
    exact ih (fun o ho => h o (by simp [ho]))

theorem onTasks_quiet {s : State} (h : Quiet s) :
    s.onTasks.incoming = [] ∧ s.onTasks.channel = [] ∧ s.onTasks.jobs = s.jobs ∧ s.onTasks.out = s.out ∧
      s.onTasks.shutdownRequested = s.shutdownRequested := by
  unfold State.onTasks
  have gen : ∀ (ts : List Task) (s0 : State), (∀ t ∈ ts, ∃ r, t = .diagnostics r) →
      (ts.foldl State.onTask s0).incoming = s0.incoming ∧ (ts.foldl State.onTask s0).channel = s0.channel ∧
      (ts.foldl State.onTask s0).jobs = s0.jobs ∧ (ts.foldl State.onTask s0).out = s0.out ∧
      (ts.foldl State.onTask s0).shutdownRequested = s0.shutdownRequested := by
    intro ts
    induction ts with
    | nil => intro s0 _; exact ⟨rfl, rfl, rfl, rfl, rfl⟩
    | cons t ts ih =>
      intro s0 ht
      obtain ⟨r, rfl⟩ := ht t (by simp)
      exact ih (s0.onTask (.diagnostics r)) (fun t h => ht t (by simp [h]))
  obtain ⟨h1, h2, h3, h4, h5⟩ := gen s.channel { s with channel := [] } h.channel
  exact ⟨h1.trans h.incoming, h2, h3, h4, h5⟩

/-- The effect of a message on what matters here. -/
theorem onMessage_quiet {s s' : State} {m : Msg} (h : Quiet s) (hm : s.onMessage m = some s') :
    s'.incoming = [] ∧ s'.channel = s.channel ∧ s'.jobs = s.jobs ∧
    ((∃ id ok, m = .shutdown id ok ∧ s' = { s with
        shutdownRequested := s.shutdownRequested || ok
        out := s.out ++ [.response id (if s.shutdownRequested then .invalidRequest else if ok then .ok else .invalidParams)] }) ∨
     (∃ id, m = .otherRequest id ∧ s' = { s with
        out := s.out ++ [.response id (if s.shutdownRequested then .invalidRequest else .methodNotFound)] }) ∨
     ((∀ id ok, m ≠ .shutdown id ok) ∧ (∀ id, m ≠ .otherRequest id) ∧ s'.out = s.out ∧
        s'.shutdownRequested = s.shutdownRequested)) := by
  cases m with
  | shutdown id ok =>
    simp only [State.onMessage, Option.some.injEq] at hm
    rw [onRequest_spec _ _ _ h.incoming] at hm
    subst hm
    refine ⟨h.incoming, rfl, rfl, Or.inl ⟨id, ok, rfl, ?_⟩⟩
    cases ok <;> simp
  | otherRequest id =>
    simp only [State.onMessage, Option.some.injEq] at hm
    rw [onRequest_spec _ _ _ h.incoming] at hm
    subst hm
    exact ⟨h.incoming, rfl, rfl, Or.inr (Or.inl ⟨id, rfl, by simp⟩)⟩
  | cancel id =>
    simp only [State.onMessage, Option.some.injEq] at hm
    rw [cancel_spec _ _ h.incoming] at hm
    subst hm
    exact ⟨h.incoming, rfl, rfl, Or.inr (Or.inr ⟨by simp, by simp, rfl, rfl⟩)⟩
  | workDoneProgressCancel | exit | otherNotification =>
    simp only [State.onMessage, Option.some.injEq] at hm
    subst hm
    exact ⟨h.incoming, rfl, rfl, Or.inr (Or.inr ⟨by simp, by simp, rfl, rfl⟩)⟩
  | malformed => simp [State.onMessage] at hm
  | response id =>
    simp only [State.onMessage, State.completeRequest] at hm
    split at hm
    · simp at hm; subst hm
      exact ⟨h.incoming, rfl, rfl, Or.inr (Or.inr ⟨by simp, by simp, rfl, rfl⟩)⟩
    · simp at hm
  | didClose uri =>
    simp only [State.onMessage, Option.some.injEq, State.didClose] at hm
    split at hm
    all_goals
      subst hm
      exact ⟨h.incoming, rfl, rfl, Or.inr (Or.inr ⟨by simp, by simp, rfl, rfl⟩)⟩
  | didOpen uri v t =>
    simp only [State.onMessage, State.didOpen] at hm
    split at hm
    · simp at hm; subst hm
      exact ⟨h.incoming, rfl, rfl, Or.inr (Or.inr ⟨by simp, by simp, rfl, rfl⟩)⟩
    · split at hm
      · simp at hm
      · simp at hm; subst hm
        exact ⟨h.incoming, rfl, rfl, Or.inr (Or.inr ⟨by simp, by simp, rfl, rfl⟩)⟩
  | didChange uri v cs =>
    simp only [State.onMessage, State.didChange] at hm
    split at hm
    · simp at hm; subst hm
      exact ⟨h.incoming, rfl, rfl, Or.inr (Or.inr ⟨by simp, by simp, rfl, rfl⟩)⟩
    · split at hm
      · simp at hm; subst hm
        exact ⟨h.incoming, rfl, rfl, Or.inr (Or.inr ⟨by simp, by simp, rfl, rfl⟩)⟩
      · split at hm
        · split at hm
          · simp at hm
          · split at hm
            · simp at hm
            · split at hm
              · simp at hm
              · simp only [Option.some.injEq] at hm; subst hm
                exact ⟨h.incoming, rfl, rfl, Or.inr (Or.inr ⟨by simp, by simp, rfl, rfl⟩)⟩
        · simp at hm

theorem quiet_init (cfg : SourceRootConfig) (dyn : Bool) : Quiet (State.init cfg dyn) :=
  ⟨rfl, by simp [State.init], by simp [State.init], rfl, rfl, rfl⟩

/-- One step of the system and its responses. -/
theorem step_quiet {env} {s s' : State} {st : Step} (h : Quiet s) (hs : step env s st = .running s') :
    Quiet s' ∧ ∃ new, s'.out = s.out ++ new ∧
      responses new = (requestIds [st]).zip (replies s.shutdownRequested [st]) ∧
      s'.shutdownRequested = (s.shutdownRequested || [st].any fun
        | .message (.shutdown _ ok) _ => ok
        | _ => false) := by
  cases st with
  | disconnect => simp [step] at hs
  | finish i =>
    simp only [step, Outcome.running.injEq] at hs
    subst hs
    unfold State.finishJob
    split
    · split
      · refine ⟨{ h with jobs := fun t ht => h.jobs t (List.mem_of_mem_eraseIdx ht) }, [], by simp, rfl, by simp⟩
      · rename_i hc
        refine ⟨{ h with jobs := fun t ht => ?_ }, [], by simp, rfl, by simp⟩
        rcases List.mem_or_eq_of_mem_set ht with hm | hm
        · exact h.jobs t hm
        · simp at hm; rw [hm]; exact compute_diagnostics hc
    · exact ⟨h, [], by simp, rfl, by simp⟩
  | deliver i =>
    simp only [step, Outcome.running.injEq] at hs
    subst hs
    unfold State.deliverJob
    split
    · rename_i t0 hj
      refine ⟨{ h with
        jobs := fun t ht => h.jobs t (List.mem_of_mem_eraseIdx ht)
        channel := fun t ht => ?_ }, [], by simp, rfl, by simp⟩
      rcases List.mem_append.1 ht with hm | hm
      · exact h.channel t hm
      · simp at hm; subst hm; exact h.jobs t (List.mem_of_getElem? hj)
    · exact ⟨h, [], by simp, rfl, by simp⟩
  | tasks cuts =>
    simp only [step] at hs
    split at hs
    · simp at hs; subst hs; exact ⟨h, [], by simp, rfl, by simp⟩
    · split at hs
      · simp at hs
      · rename_i s2 ha
        simp at hs; subst hs
        obtain ⟨h1, h2, h3, h4, h5⟩ := onTasks_quiet h
        obtain ⟨hc, hv, hd, hm⟩ := afterEvent_calm ha
        obtain ⟨new, hn1, hn2⟩ := hc.out
        refine ⟨⟨hc.incoming.trans h1, ?_, ?_, hv, hd, hm⟩, new, by rw [hn1, h4], responses_published hn2, ?_⟩
        · rw [hc.channel, h2]; simp
        · intro t ht
          rcases hc.jobs t ht with ht | ht
          · rw [h3] at ht; exact h.jobs t ht
          · exact ht
        · rw [hc.down, h5]; simp
  | message m cuts =>
    have hne : m ≠ .exit := by rintro rfl; simp [step] at hs
    have hs' : ∃ s1, s.onMessage m = some s1 ∧ s1.afterEvent env cuts = some s' := by
      have : step env s (.message m cuts) = match (s.onMessage m).bind (State.afterEvent env cuts) with
          | none => .panicked
          | some s => .running s := by
        cases m <;> first | exact absurd rfl hne | rfl
      rw [this] at hs
      cases ho : s.onMessage m with
      | none => rw [ho] at hs; simp at hs
      | some s1 =>
        rw [ho] at hs
        simp only [Option.bind_some] at hs
        split at hs
        · simp at hs
        · rename_i h2; simp at hs; subst hs; exact ⟨s1, rfl, h2⟩
    obtain ⟨s1, hm, ha⟩ := hs'
    obtain ⟨h1, h2, h3, h4⟩ := onMessage_quiet h hm
    obtain ⟨hc, hv, hd, hn⟩ := afterEvent_calm ha
    obtain ⟨new, hn1, hn2⟩ := hc.out
    refine ⟨⟨hc.incoming.trans h1, ?_, ?_, hv, hd, hn⟩, ?_⟩
    · rw [hc.channel, h2]; exact h.channel
    · intro t ht
      rcases hc.jobs t ht with ht | ht
      · rw [h3] at ht; exact h.jobs t ht
      · exact ht
    · rcases h4 with ⟨id, ok, rfl, rfl⟩ | ⟨id, rfl, rfl⟩ | ⟨n1, n2, n3, n4⟩
      · refine ⟨[_] ++ new, by rw [hn1, List.append_assoc], ?_, ?_⟩
        · rw [responses_append, responses_published hn2]; rfl
        · rw [hc.down]; simp
      · refine ⟨[_] ++ new, by rw [hn1, List.append_assoc], ?_, ?_⟩
        · rw [responses_append, responses_published hn2]; rfl
        · rw [hc.down]; simp
      · refine ⟨new, by rw [hn1, n3], ?_, ?_⟩
        · rw [responses_published hn2]
          cases m <;> first | rfl | exact absurd rfl (n1 _ _) | exact absurd rfl (n2 _)
        · rw [hc.down, n4]
          cases m <;> first | exact absurd rfl (n1 _ _) | simp

/-- The flag after some steps. -/
def downAfter (steps : List Step) : Bool := steps.any fun
  | .message (.shutdown _ ok) _ => ok
  | _ => false

theorem replies_cons (down : Bool) (st : Step) (steps : List Step) :
    replies down (st :: steps) = replies down [st] ++ replies (down || downAfter [st]) steps := by
  cases st with
  | message m cuts => cases m <;> simp [replies, downAfter]
  | _ => simp [replies, downAfter]

theorem requestIds_cons (st : Step) (steps : List Step) : requestIds (st :: steps) = requestIds [st] ++ requestIds steps := by
  cases st with
  | message m cuts => cases m <;> simp [requestIds]
  | _ => simp [requestIds]

theorem replies_length (down : Bool) (steps : List Step) : (replies down steps).length = (requestIds steps).length := by
  induction steps generalizing down with
  | nil => rfl
  | cons st steps ih =>
    cases st with
    | message m cuts => cases m <;> simp [replies, requestIds, ih]
    | _ => simp [replies, requestIds, ih]

theorem runFrom_quiet {env} {steps : List Step} {s s' : State} (h : Quiet s) (hr : runFrom env s steps = .running s') :
    Quiet s' ∧ s'.shutdownRequested = (s.shutdownRequested || downAfter steps) ∧ ∃ new, s'.out = s.out ++ new ∧
      responses new = (requestIds steps).zip (replies s.shutdownRequested steps) := by
  induction steps generalizing s with
  | nil => simp [runFrom] at hr; subst hr; exact ⟨h, by simp [downAfter], [], by simp, rfl⟩
  | cons st steps ih =>
    rw [runFrom] at hr
    cases hs : step env s st with
    | running s1 =>
      rw [hs] at hr
      obtain ⟨q1, n1, e1, r1, d1⟩ := step_quiet h hs
      obtain ⟨q2, d2, n2, e2, r2⟩ := ih q1 hr
      have hd : s1.shutdownRequested = (s.shutdownRequested || downAfter [st]) := d1
      refine ⟨q2, ?_, n1 ++ n2, by rw [e2, e1, List.append_assoc], ?_⟩
      · rw [d2, hd]; simp [downAfter, Bool.or_assoc]
      · rw [responses_append, r1, r2, hd, replies_cons s.shutdownRequested st steps, requestIds_cons st steps, List.zip_append]
        exact (replies_length _ _).symm
    | exited s1 => rw [hs] at hr; simp at hr
    | failed s1 => rw [hs] at hr; simp at hr
    | panicked => rw [hs] at hr; simp at hr

/-! ## C24 -/

/-- **C24.**  After every history — conforming or not, under every schedule — that the loop
survived, the responses sent are exactly one per request received, in the order of the requests, and
there are no others.  As this holds after every prefix of a history, every request is answered in the
turn it is received. -/
theorem every_request_gets_one_response (env : Env) (cfg : SourceRootConfig) (dyn : Bool) (steps : List Step) (s : State)
    (hrun : run env cfg dyn steps = .running s) : (responses s.out).map Prod.fst = requestIds steps := by
  obtain ⟨_, _, new, e, r⟩ := runFrom_quiet (quiet_init cfg dyn) hrun
  have h0 : responses (State.init cfg dyn).out = [] := by cases dyn <;> rfl
  rw [e, responses_append, h0, List.nil_append, r, List.map_fst_zip]
  rw [replies_length]; exact Nat.le_refl _

/-- **C24, C25.**  The replies are those the protocol asks for: success for the first well-formed
shutdown, an `InvalidRequest` error for everything after it, `InvalidParams` for a malformed
shutdown before it, `MethodNotFound` for all other requests before it. -/
theorem replies_follow_protocol (env : Env) (cfg : SourceRootConfig) (dyn : Bool) (steps : List Step) (s : State)
    (hrun : run env cfg dyn steps = .running s) : (responses s.out).map Prod.snd = replies false steps := by
  obtain ⟨_, _, new, e, r⟩ := runFrom_quiet (quiet_init cfg dyn) hrun
  have h0 : responses (State.init cfg dyn).out = [] := by cases dyn <;> rfl
  rw [e, responses_append, h0, List.nil_append, r]
  have hd : (State.init cfg dyn).shutdownRequested = false := rfl
  rw [hd, List.map_snd_zip]
  rw [replies_length]; exact Nat.le_refl _

example : ∃ s, run sampleEnv SourceRootConfig.default true
      [.message (.otherRequest (.num 1)) (fun _ => 0), .message (.cancel (.num 1)) (fun _ => 0),
       .message (.shutdown (.num 2) false) (fun _ => 0), .message (.shutdown (.str ['x']) true) (fun _ => 0),
       .message (.otherRequest (.num 1)) (fun _ => 0)] = .running s ∧
    responses s.out = [(.num 1, .methodNotFound), (.num 2, .invalidParams), (.str ['x'], .ok), (.num 1, .invalidRequest)] :=
  ⟨_, rfl, rfl⟩

/-! ## C25 -/

theorem ok_of_replies {down : Bool} {steps : List Step} (h : Reply.ok ∈ replies down steps) :
    down = false ∧ downAfter steps = true := by
  induction steps generalizing down with
  | nil => simp [replies] at h
  | cons st steps ih =>
    rw [replies_cons, List.mem_append] at h
    have hd : downAfter (st :: steps) = (downAfter [st] || downAfter steps) := by simp [downAfter]
    rcases h with h | h
    · cases st with
      | message m cuts =>
        cases m with
        | shutdown id ok => cases down <;> cases ok <;> simp [replies] at h <;> simp [downAfter]
        | otherRequest id => cases down <;> simp [replies] at h
        | _ => simp [replies] at h
      | _ => simp [replies] at h
    · obtain ⟨h1, h2⟩ := ih h
      simp at h1
      exact ⟨h1.1, by rw [hd, h2]; simp⟩

theorem replies_down (steps : List Step) : replies true steps = (requestIds steps).map fun _ => .invalidRequest := by
  induction steps with
  | nil => rfl
  | cons st steps ih =>
    rw [replies_cons, requestIds_cons, List.map_append, Bool.true_or, ih]
    congr 1
    cases st with
    | message m cuts => cases m <;> simp [replies, requestIds]
    | _ => simp [replies, requestIds]

/-- **C25.**  Once some request was answered with success, every later request is answered with an
`InvalidRequest` error. -/
theorem after_shutdown_requests_are_invalid (env : Env) (cfg : SourceRootConfig) (dyn : Bool) (pre post : List Step)
    (s0 s : State) (id : RequestId) (hpre : run env cfg dyn pre = .running s0) (hok : (id, Reply.ok) ∈ responses s0.out)
    (hpost : runFrom env s0 post = .running s) :
    ∃ new, s.out = s0.out ++ new ∧ responses new = (requestIds post).map fun i => (i, .invalidRequest) := by
  obtain ⟨q, d, _, e0, r0⟩ := runFrom_quiet (quiet_init cfg dyn) hpre
  obtain ⟨_, _, new, e, r⟩ := runFrom_quiet q hpost
  have hr : Reply.ok ∈ replies false pre := by
    rw [← replies_follow_protocol env cfg dyn pre s0 hpre]
    exact List.mem_map.2 ⟨_, hok, rfl⟩
  have hd : s0.shutdownRequested = true := by
    rw [d, (ok_of_replies hr).2]; simp
  refine ⟨new, e, ?_⟩
  rw [r, hd, replies_down]
  generalize requestIds post = l
  induction l with
  | nil => rfl
  | cons a l ih => simp [ih]

/-- **C25.**  After an accepted shutdown a request executes no method: the turn only sends the error,
everything else in the server stays as it is. -/
theorem after_shutdown_nothing_is_executed (env : Env) (cfg : SourceRootConfig) (dyn : Bool) (pre : List Step)
    (s : State) (id : RequestId) (hpre : run env cfg dyn pre = .running s) (hok : (id, Reply.ok) ∈ responses s.out)
    (id' : RequestId) (m : Msg) (hm : m = .otherRequest id' ∨ ∃ ok, m = .shutdown id' ok) (cuts : Nat → Nat) :
    step env s (.message m cuts) = .running { s with out := s.out ++ [.response id' .invalidRequest] } := by
  obtain ⟨q, d, _, e0, r0⟩ := runFrom_quiet (quiet_init cfg dyn) hpre
  have hr : Reply.ok ∈ replies false pre := by
    rw [← replies_follow_protocol env cfg dyn pre s hpre]
    exact List.mem_map.2 ⟨_, hok, rfl⟩
  have hd : s.shutdownRequested = true := by
    rw [d, (ok_of_replies hr).2]; simp
  have hidle : ∀ s' : State, Quiet s' → s'.afterEvent env cuts = some s' := by
    intro s' q'
    unfold State.afterEvent State.processChanges Vfs.takeChanges
    simp only [q'.drained, List.isEmpty_nil, if_true, q'.noted, Bool.or_self, Bool.false_eq_true, if_false,
      State.publishAll, Collection.takeChanges, q'.published]
    congr 1
    have e1 : ({ s'.vfs with changes := [] } : Vfs VfsPath Text) = s'.vfs := by rw [← q'.drained]
    have e2 : ({ s'.memDocs with addedOrRemoved := false } : MemDocs) = s'.memDocs := by rw [← q'.noted]
    rw [e1, e2]
  have hfin : Quiet { s with out := s.out ++ [.response id' .invalidRequest] } := { q with }
  rcases hm with rfl | ⟨ok, rfl⟩
  · simp only [step, State.onMessage, Option.bind_some]
    rw [onRequest_spec _ _ _ q.incoming]
    simp only [hd, if_true, Bool.true_or]
    have e : ({ s with shutdownRequested := true, out := s.out ++ [Out.response id' .invalidRequest] } : State) =
        { s with out := s.out ++ [.response id' .invalidRequest] } := by rw [← hd]
    rw [e, hidle _ hfin]
  · simp only [step, State.onMessage, Option.bind_some]
    rw [onRequest_spec _ _ _ q.incoming]
    simp only [hd, if_true, Bool.true_or]
    have e : ({ s with shutdownRequested := true, out := s.out ++ [Out.response id' .invalidRequest] } : State) =
        { s with out := s.out ++ [.response id' .invalidRequest] } := by rw [← hd]
    rw [e, hidle _ hfin]

example : ∃ s, run sampleEnv SourceRootConfig.default true
      [.message (.didOpen (some pathA) 1 ['x']) (fun _ => 0), .message (.shutdown (.num 2) true) (fun _ => 0)] = .running s ∧
    (RequestId.num 2, Reply.ok) ∈ responses s.out := ⟨_, rfl, by decide⟩

theorem runFrom_append (env : Env) (pre post : List Step) (s : State) :
    runFrom env s (pre ++ post) = match runFrom env s pre with
      | .running s' => runFrom env s' post
      | o => o := by
  induction pre generalizing s with
  | nil => rfl
  | cons st pre ih =>
    simp only [List.cons_append, runFrom]
    cases step env s st <;> simp [ih]

theorem ended_iff (env : Env) (o : Outcome) (ho : ∀ s, o ≠ .running s) (s0 : State) (steps : List Step) :
    runFrom env s0 steps = o ↔
      ∃ pre st post s1, steps = pre ++ st :: post ∧ runFrom env s0 pre = .running s1 ∧ step env s1 st = o := by
  constructor
  · intro h
    induction steps generalizing s0 with
    | nil => exact absurd h.symm (ho s0)
    | cons st steps ih =>
      rw [runFrom] at h
      cases hs : step env s0 st with
      | running s1 =>
        rw [hs] at h
        obtain ⟨pre, st', post, s2, rfl, h1, h2⟩ := ih s1 h
        exact ⟨st :: pre, st', post, s2, rfl, by rw [runFrom, hs]; exact h1, h2⟩
      | exited s1 => rw [hs] at h; exact ⟨[], st, steps, s0, rfl, rfl, by rw [hs]; exact h⟩
      | failed s1 => rw [hs] at h; exact ⟨[], st, steps, s0, rfl, rfl, by rw [hs]; exact h⟩
      | panicked => rw [hs] at h; exact ⟨[], st, steps, s0, rfl, rfl, by rw [hs]; exact h⟩
  · rintro ⟨pre, st, post, s1, rfl, h1, h2⟩
    rw [runFrom_append, h1]
    simp only [runFrom]
    rw [h2]
    cases o <;> first | rfl | exact absurd rfl (ho _)

/-- **C25.**  The loop ends with success exactly when an exit notification is received, and then
nothing else happens. -/
theorem exits_iff_exit_received (env : Env) (cfg : SourceRootConfig) (dyn : Bool) (steps : List Step) (s : State) :
    run env cfg dyn steps = .exited s ↔
      ∃ pre cuts post, steps = pre ++ .message .exit cuts :: post ∧ run env cfg dyn pre = .running s := by
  unfold run
  rw [ended_iff env _ (by simp)]
  constructor
  · rintro ⟨pre, st, post, s1, rfl, h1, h2⟩
    cases st with
    | message m cuts =>
      by_cases hm : m = .exit
      · subst hm; simp [step] at h2; subst h2; exact ⟨pre, cuts, post, rfl, h1⟩
      · exfalso
        have : step env s1 (.message m cuts) = match (s1.onMessage m).bind (State.afterEvent env cuts) with
            | none => .panicked
            | some s => .running s := by
          cases m <;> first | exact absurd rfl hm | rfl
        rw [this] at h2
        split at h2 <;> simp at h2
    | tasks cuts =>
      simp only [step] at h2
      split at h2
      · simp at h2
      · split at h2 <;> simp at h2
    | _ => simp [step] at h2
  · rintro ⟨pre, cuts, post, rfl, h1⟩
    exact ⟨pre, _, post, s, rfl, h1, by simp [step]⟩

/-- **C25.**  The loop ends with an error exactly when the connection closes before an exit
notification was received. -/
theorem fails_iff_disconnected (env : Env) (cfg : SourceRootConfig) (dyn : Bool) (steps : List Step) (s : State) :
    run env cfg dyn steps = .failed s ↔
      ∃ pre post, steps = pre ++ .disconnect :: post ∧ run env cfg dyn pre = .running s := by
  unfold run
  rw [ended_iff env _ (by simp)]
  constructor
  · rintro ⟨pre, st, post, s1, rfl, h1, h2⟩
    cases st with
    | message m cuts =>
      by_cases hm : m = .exit
      · subst hm; simp [step] at h2
      · exfalso
        have : step env s1 (.message m cuts) = match (s1.onMessage m).bind (State.afterEvent env cuts) with
            | none => .panicked
            | some s => .running s := by
          cases m <;> first | exact absurd rfl hm | rfl
        rw [this] at h2
        split at h2 <;> simp at h2
    | tasks cuts =>
      simp only [step] at h2
      split at h2
      · simp at h2
      · split at h2 <;> simp at h2
    | disconnect => simp [step] at h2; subst h2; exact ⟨pre, post, rfl, h1⟩
    | _ => simp [step] at h2
  · rintro ⟨pre, post, rfl, h1⟩
    exact ⟨pre, _, post, s, rfl, h1, by simp [step]⟩

example : ∃ s, run sampleEnv SourceRootConfig.default true (sampleSteps ++ [.message .exit (fun _ => 0), .disconnect]) = .exited s := by
  obtain ⟨s, h⟩ := conforming_traffic_does_not_crash sampleEnv SourceRootConfig.default true default_configured
    sampleSteps sampleClient sample_history sample_few
  exact ⟨s, (exits_iff_exit_received _ _ _ _ _).2 ⟨_, _, _, rfl, h⟩⟩

/-! ## C27 -/

/-- **C27.**  In every state, a cancel notification answers a pending request with a cancellation
error, after which it is no longer pending (a second cancellation does nothing and a late result is
not sent); it leaves everything else as it is. -/
theorem cancel_answers_pending (s : State) (id : RequestId) (h : id ∈ s.incoming.keys) :
    (s.cancel id).out = s.out ++ [.response id .requestCanceled] ∧
    (∀ id', id' ∈ (s.cancel id).incoming.keys ↔ id' ∈ s.incoming.keys ∧ id' ≠ id) ∧
    (s.cancel id).cancel id = s.cancel id ∧ (∀ reply, (s.cancel id).respond id reply = s.cancel id) ∧
    { s.cancel id with out := s.out, incoming := s.incoming } = s := by
  obtain ⟨u, hu⟩ := Option.isSome_iff_exists.1 ((AMap.mem_keys _ _).1 h)
  have hc : s.cancel id = State.send { s with incoming := s.incoming.erase id } (.response id .requestCanceled) := by
    unfold State.cancel; rw [hu]
  have hn : (s.incoming.erase id).get id = none := by rw [AMap.get_erase]; simp
  refine ⟨by rw [hc]; rfl, ?_, ?_, ?_, by rw [hc]; rfl⟩
  · intro id'; rw [hc]
    show id' ∈ (s.incoming.erase id).keys ↔ _
    rw [AMap.keys_erase, List.mem_filter]; simp
  · rw [hc, State.cancel]; simp only [State.send, hn]
  · intro reply; rw [hc, State.respond]; simp only [State.send, hn]

/-- **C27.**  A cancel notification for an id that is not pending changes nothing. -/
theorem cancel_ignores_others (s : State) (id : RequestId) (h : id ∉ s.incoming.keys) : s.cancel id = s := by
  unfold State.cancel
  rw [(AMap.get_eq_none _ _).2 h]

/-- **C27** along histories: this server answers requests in the turn they arrive, so no request is
ever pending when a cancel notification is taken, and the notification has no effect at all. -/
theorem cancel_has_no_effect (env : Env) (cfg : SourceRootConfig) (dyn : Bool) (steps : List Step) (s : State)
    (hrun : run env cfg dyn steps = .running s) (id : RequestId) (cuts : Nat → Nat) :
    step env s (.message (.cancel id) cuts) = .running s := by
  obtain ⟨q, _⟩ := runFrom_quiet (quiet_init cfg dyn) hrun
  simp only [step, State.onMessage, cancel_spec _ _ q.incoming, Option.bind_some]
  unfold State.afterEvent State.processChanges Vfs.takeChanges
  simp only [q.drained, List.isEmpty_nil, if_true, q.noted, Bool.or_self, Bool.false_eq_true, if_false,
    State.publishAll, Collection.takeChanges, q.published]
  congr 1
  have e1 : ({ s.vfs with changes := [] } : Vfs VfsPath Text) = s.vfs := by rw [← q.drained]
  have e2 : ({ s.memDocs with addedOrRemoved := false } : MemDocs) = s.memDocs := by rw [← q.noted]
  rw [e1, e2]

example : let s := (State.init SourceRootConfig.default false).registerRequest (.num 3)
    RequestId.num 3 ∈ s.incoming.keys ∧ RequestId.num 4 ∉ s.incoming.keys ∧
    (s.cancel (.num 3)).out = [.response (.num 3) .requestCanceled] := by decide

end Verif.Server
