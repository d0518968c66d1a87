import Verif.Server.Converge

/-!
Versions of published diagnostics (C61).
-/

set_option autoImplicit false

namespace Verif.Server

open Verif.FileSet Verif.Vfs Verif.Db Verif.Diagnostics Verif.LineEndings Verif.Server.Spec

theorem Spec.History.split {c c'' : Client} {a b : List Step} (h : History c (a ++ b) c'') :
    ∃ c', History c a c' ∧ History c' b c'' := by
  induction a generalizing c with
  | nil => exact ⟨c, .nil c, h⟩
  | cons st a ih =>
    cases h with
    | message cuts hs h => obtain ⟨c', h1, h2⟩ := ih h; exact ⟨c', .message cuts hs h1, h2⟩
    | tasks cuts h => obtain ⟨c', h1, h2⟩ := ih h; exact ⟨c', .tasks cuts h1, h2⟩
    | finish i h => obtain ⟨c', h1, h2⟩ := ih h; exact ⟨c', .finish i h1, h2⟩
    | deliver i h => obtain ⟨c', h1, h2⟩ := ih h; exact ⟨c', .deliver i h1, h2⟩

/-- The paths opened by one step. -/
theorem opened_cons (st : Step) (a : List Step) : opened (st :: a) = opened [st] ++ opened a := by
  cases st with
  | message m cuts =>
    cases m with
    | didOpen uri v t => cases uri <;> rfl
    | _ => rfl
  | _ => rfl

theorem opened_append (a b : List Step) : opened (a ++ b) = opened a ++ opened b := by
  induction a with
  | nil => rfl
  | cons st a ih => rw [List.cons_append, opened_cons, ih, opened_cons st a, List.append_assoc]

/-- What the end of a turn publishes carries the recorded versions. -/
theorem afterEvent_versions {ps c s s'} {env : Env} {cuts : Nat → Nat} (h : Base ps c s)
    (ha : s.afterEvent env cuts = some s') :
    ∃ new, s'.out = s.out ++ new ∧ ∀ p ds v, Out.publishDiagnostics p ds v ∈ new → v = s'.memDocs.docs.get p := by
  obtain ⟨_, _, _, s2, _, ha', _, _, _, _, _, _, _, _, _, _, _, hout⟩ := afterEvent_ok env cuts h
  rw [ha] at ha'; cases ha'
  refine ⟨_, hout, fun p ds v hm => ?_⟩
  obtain ⟨f, _, hf⟩ := List.mem_filterMap.1 hm
  unfold pubOut at hf
  split at hf
  · split at hf
    · cases hf
    · simp only [Option.some.injEq, Out.publishDiagnostics.injEq] at hf
      obtain ⟨rfl, _, rfl⟩ := hf
      rfl
  · cases hf

/-- **C61, partial.**  Whatever a step of the server publishes for a document carries the client's
version of the document after that step.  Missing: that the diagnostics were computed from the text
with this version, which does not hold, see below. -/
theorem published_versions_are_current_partial (env : Env) (cfg : SourceRootConfig) (dyn : Bool)
    (hcfg : Configured cfg) (steps : List Step) (st : Step) (c : Client)
    (hist : History (Client.init dyn) (steps ++ [st]) c) (hfew : FewPaths (steps ++ [st])) (s s' : State)
    (hrun : run env cfg dyn steps = .running s) (hrun' : run env cfg dyn (steps ++ [st]) = .running s') :
    ∃ new, s'.out = s.out ++ new ∧
      ∀ p ds v, Out.publishDiagnostics (.pathBuf p) ds v ∈ new → v = (c.docs p).map Doc.version := by
  have hver := (versions_are_current env cfg dyn hcfg _ c hist hfew s' hrun').1
  obtain ⟨c0, hist0, hist1⟩ := hist.split
  have hfew0 : FewPaths steps := by
    obtain ⟨ps, h1, h2⟩ := hfew
    exact ⟨ps, h1, fun p hp => h2 p (by rw [opened_append]; exact List.mem_append_left _ hp)⟩
  obtain ⟨ps, hps, hopen⟩ := hfew
  have hinv : Inv ps c0 s := by
    obtain ⟨s1, e1, e2⟩ := runFrom_ok env hps hist0
      (fun p hp => hopen p (by rw [opened_append]; exact List.mem_append_left _ hp)) _ (init_ok ps cfg dyn hcfg)
    unfold run at hrun
    rw [hrun] at e1; cases e1
    exact e2
  have hstep : step env s st = .running s' := by
    unfold run at hrun hrun'
    rw [runFrom_append, hrun] at hrun'
    simp only [runFrom] at hrun'
    split at hrun'
    · rename_i h; rw [h]; cases hrun'; rfl
    · exact hrun'
  suffices h : ∃ new, s'.out = s.out ++ new ∧
      ∀ p ds v, Out.publishDiagnostics p ds v ∈ new → v = s'.memDocs.docs.get p by
    obtain ⟨new, e, h⟩ := h
    exact ⟨new, e, fun p ds v hm => by rw [h _ ds v hm, hver]⟩
  cases hist1 with
  | message cuts hs hn =>
    rename_i m c1
    have ho : ∀ p v t, m = .didOpen (some p) v t → p ∈ ps := by
      rintro p v t rfl
      exact hopen p (by rw [opened_append]; simp [opened])
    obtain ⟨s1, h1, h2⟩ := step_message hstep
    obtain ⟨s1', h1', hb, _⟩ := onMessage_ok hinv.toBase hps hs ho
    rw [h1] at h1'; cases h1'
    obtain ⟨_, ⟨new1, e1, n1⟩, _⟩ := onMessage_more hinv hs h1
    obtain ⟨new2, e2, n2⟩ := afterEvent_versions hb h2
    refine ⟨new1 ++ new2, by rw [e2, e1, List.append_assoc], fun p ds v hm => ?_⟩
    rcases List.mem_append.1 hm with hm | hm
    · exact absurd hm (n1 p ds v)
    · exact n2 p ds v hm
  | tasks cuts hn =>
    simp only [step] at hstep
    split at hstep
    · cases hstep; exact ⟨[], by simp, by simp⟩
    · split at hstep
      · cases hstep
      · rename_i s2 h2
        cases hstep
        have ht := onTasks_ok hinv.toBase
        obtain ⟨new, e, n⟩ := afterEvent_versions ht.1 h2
        exact ⟨new, by rw [e, ht.2.1], n⟩
  | finish i hn =>
    simp only [step, Outcome.running.injEq] at hstep
    subst hstep
    refine ⟨[], ?_, by simp⟩
    unfold State.finishJob
    split
    · split <;> simp
    · simp
  | deliver i hn =>
    simp only [step, Outcome.running.injEq] at hstep
    subst hstep
    refine ⟨[], ?_, by simp⟩
    unfold State.deliverJob
    split <;> simp

/-- A result is computed, then the document changes, then the result arrives. -/
def lateSteps : List Step :=
  [.message (.didOpen (some pathA) 1 ['x']) (fun _ => 0), .finish 0,
   .message (.didChange (some pathA) 2 [⟨none, ['y']⟩]) (fun _ => 0), .deliver 0]

/-- Witness of the partial theorem; **C61 does not hold**: the diagnostics of version 1 (the message is
the text) are published as those of version 2. -/
theorem published_diagnostics_are_outdated :
    let cfg : SourceRootConfig := ⟨⟨1, []⟩, [0]⟩
    Configured cfg ∧
      ∃ s, run sampleEnv cfg false (lateSteps ++ [.tasks (fun _ => 0)]) = .running s ∧
        s.out = [.publishDiagnostics (.pathBuf pathA) [⟨⟨⟨0, 0⟩, ⟨0, 0⟩⟩, some 1, none, ['x'], []⟩] (some 2)] ∧
        ∃ c, History (Client.init false) (lateSteps ++ [.tasks (fun _ => 0)]) c ∧ c.docs pathA = some ⟨2, ['y']⟩ ∧
          FewPaths (lateSteps ++ [.tasks (fun _ => 0)]) := by
  refine ⟨default_configured, _, rfl, rfl,
    ((Client.init false).set pathA (some ⟨1, ['x']⟩)).set pathA (some ⟨2, ['y']⟩), ?_, rfl,
    ⟨[pathA], by decide, by decide⟩⟩
  refine .message _ (.openFile _ _ _ _) (.finish _ (.message _ ?_ (.deliver _ (.tasks _ (.nil _)))))
  exact .changeFile _ pathA 2 ⟨1, ['x']⟩ [.full ['y']] _ rfl (.cons (.full _ _) (.nil _))

end Verif.Server
