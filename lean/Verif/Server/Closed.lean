import Verif.Server.Versions

/-!
Diagnostics of closed documents (C76).
-/

set_option autoImplicit false

namespace Verif.Server

open Verif.FileSet Verif.Vfs Verif.Db Verif.Diagnostics Verif.LineEndings Verif.Server.Spec

/-! ## Nothing concerns the file -/

/-- The files of a task. -/
def taskFiles : Task → List Nat
  | .response _ _ => []
  | .diagnostics r => r.map (·.1)

/-- The files of a job. -/
def jobFiles : Job → List Nat
  | .running subs _ => subs
  | .finished t => taskFiles t

/-- No work on its way concerns the file. -/
structure Idle (f : Nat) (s : State) : Prop where
  jobs : ∀ j ∈ s.jobs, f ∉ jobFiles j
  channel : ∀ t ∈ s.channel, f ∉ taskFiles t

theorem idle_finishJob {f : Nat} {s : State} (env : Env) (i : Nat) (h : Idle f s) : Idle f (s.finishJob env i) := by
  unfold State.finishJob
  split
  · rename_i subs snap hj
    have hjob := h.jobs _ (List.mem_of_getElem? hj)
    split
    · exact ⟨fun j hj => h.jobs j (List.mem_of_mem_eraseIdx hj), h.channel⟩
    · rename_i t ht
      refine ⟨fun j hj' => ?_, h.channel⟩
      rcases List.mem_or_eq_of_mem_set hj' with hm | rfl
      · exact h.jobs j hm
      · obtain ⟨r, rfl, h3, _⟩ := compute_files _ ht
        show f ∉ r.map (·.1)
        rw [h3]; exact hjob
  · exact h

theorem idle_deliverJob {f : Nat} {s : State} (i : Nat) (h : Idle f s) : Idle f (s.deliverJob i) := by
  unfold State.deliverJob
  split
  · rename_i t hj
    have hjob := h.jobs _ (List.mem_of_getElem? hj)
    refine ⟨fun j hj => h.jobs j (List.mem_of_mem_eraseIdx hj), fun t' ht' => ?_⟩
    rcases List.mem_append.1 ht' with hm | hm
    · exact h.channel t' hm
    · simp at hm; subst hm; exact hjob
  · exact h

/-- A write to the database gives the file no work. -/
theorem processChanges_jobs {env cuts} {s s1 : State} {b : Bool} (hp : s.processChanges env cuts = some (s1, b)) :
    s1.jobs = s.jobs ∨ ∃ e, s1.jobs = cancelRunning env e cuts s.jobs 0 := by
  unfold State.processChanges at hp
  simp only at hp
  split at hp
  · cases hp; exact Or.inl rfl
  · split at hp
    · cases hp
    · split at hp
      · cases hp
      · split at hp
        · cases hp
        · cases hp; exact Or.inr ⟨_, rfl⟩

/-- Results that do not concern the file leave its stored diagnostics alone. -/
theorem setNatives_other (f : Nat) (r : List (Nat × List Diagnostic)) (c : Collection) (h : f ∉ r.map (·.1)) :
    let c' := r.foldl (fun c fd => c.setNativeDiagnostics fd.1 fd.2) c
    c'.diagnosticsFor f = c.diagnosticsFor f ∧ (f ∈ c'.changes → f ∈ c.changes) := by
  induction r generalizing c with
  | nil => exact ⟨rfl, id⟩
  | cons x xs ih =>
    simp only [List.map_cons, List.mem_cons, not_or] at h
    obtain ⟨i1, i2⟩ := ih (c.setNativeDiagnostics x.1 x.2) h.2
    obtain ⟨f1, _, _, _, f5⟩ := setNative_facts c x.1 x.2
    refine ⟨?_, fun hm => ?_⟩
    · rw [List.foldl_cons, i1]
      unfold Collection.diagnosticsFor
      rw [f5 f h.1, f1]
    · rcases mem_changes_setNative _ _ _ _ (i2 hm) with h' | h'
      · exact h'
      · exact absurd h' h.1

theorem onTasks_other {f : Nat} {s : State} (h : Idle f s) :
    s.onTasks.diagnostics.diagnosticsFor f = s.diagnostics.diagnosticsFor f ∧
    (f ∈ s.onTasks.diagnostics.changes → f ∈ s.diagnostics.changes) := by
  unfold State.onTasks
  have gen : ∀ (ts : List Task) (s0 : State), (∀ t ∈ ts, f ∉ taskFiles t) →
      (ts.foldl State.onTask s0).diagnostics.diagnosticsFor f = s0.diagnostics.diagnosticsFor f ∧
      (f ∈ (ts.foldl State.onTask s0).diagnostics.changes → f ∈ s0.diagnostics.changes) := by
    intro ts
    induction ts with
    | nil => intro s0 _; exact ⟨rfl, id⟩
    | cons t ts ih =>
      intro s0 ht
      rw [List.foldl_cons]
      obtain ⟨i1, i2⟩ := ih (s0.onTask t) (fun t' h' => ht t' (by simp [h']))
      have hone : (s0.onTask t).diagnostics.diagnosticsFor f = s0.diagnostics.diagnosticsFor f ∧
          (f ∈ (s0.onTask t).diagnostics.changes → f ∈ s0.diagnostics.changes) := by
        cases t with
        | response i reply =>
          simp only [State.onTask, State.respond]
          split <;> exact ⟨rfl, id⟩
        | diagnostics r => exact setNatives_other f r s0.diagnostics (ht (.diagnostics r) (by simp))
      exact ⟨i1.trans hone.1, fun hm => hone.2 (i2 hm)⟩
  exact gen s.channel { s with channel := [] } h.channel

/-- The end of a turn neither starts work for a closed document nor publishes anything for it. -/
theorem afterEvent_closed {ps c s s'} {env : Env} {cuts : Nat → Nat} (h : Base ps c s)
    (ha : s.afterEvent env cuts = some s') (p : Bytes) (hc : c.docs p = none) (f : Nat)
    (hf : s.vfs.filePath f = some (.pathBuf p)) (hi : Idle f s) (hch : f ∉ s.diagnostics.changes) :
    Idle f s' ∧ s'.vfs.filePath f = some (.pathBuf p) ∧
      s'.diagnostics.diagnosticsFor f = s.diagnostics.diagnosticsFor f ∧
      ∃ new, s'.out = s.out ++ new ∧ ∀ d v, Out.publishDiagnostics (.pathBuf p) d v ∉ new := by
  obtain ⟨s1, b, subs, s2, hpc, ha', hinv, e1, e2, e3, e4, e5, e6, e7, e8, e9, e10, e11⟩ := afterEvent_ok env cuts h
  rw [ha] at ha'; cases ha'
  obtain ⟨s1', b', hpc', hb1, _, _, hmem, _, _, _, _, hvfs, _⟩ := processChanges_ok env cuts h
  rw [hpc] at hpc'; cases hpc'
  have hint : s1.vfs.interner = s.vfs.interner := by rw [hvfs]; rfl
  have hf1 : s1.vfs.filePath f = some (.pathBuf p) := by unfold Vfs.filePath at *; rw [hint]; exact hf
  have hinj : ∀ g, s'.vfs.filePath g = some (.pathBuf p) → g = f := by
    intro g hg
    have h1 := indexOf_of_getElem hinv.ok.nodup hg
    rw [← e1] at hf1
    rw [indexOf_of_getElem hinv.ok.nodup hf1] at h1
    simpa using h1.symm
  have hsubs : f ∉ subs := by
    intro hm
    obtain ⟨q, hq, hqf⟩ := (mapM_mem _ e8 f).1 hm
    unfold subscription at hqf
    split at hqf
    · rename_i id hid
      cases hqf
      have := indexOf_some (fileId_some hb1.ok hid).1
      have hq' : some q = some (VfsPath.pathBuf p) := by rw [← this]; exact hf1
      cases hq'
      rw [AMap.mem_keys, h.docs, hc] at hq
      simp at hq
    · cases hqf
  have hjobs1 : ∀ j ∈ s1.jobs, f ∉ jobFiles j := by
    rcases processChanges_jobs hpc with e | ⟨e, he⟩
    · rw [e]; exact hi.jobs
    · intro j hj
      rw [he] at hj
      obtain ⟨t, rfl, h1 | ⟨subs', snap, n, h1, h2⟩⟩ := mem_cancelRunning _ _ _ hj
      · exact hi.jobs _ h1
      · obtain ⟨r, rfl, h3, _⟩ := compute_files _ h2
        show f ∉ r.map (·.1)
        rw [h3]
        exact fun hm => hi.jobs _ h1 (List.mem_of_mem_take hm)
  refine ⟨⟨?_, by rw [e4]; exact hi.channel⟩, by rw [e1]; exact hf1, by rw [e10]; rfl, _, e11, ?_⟩
  · rw [e9]
    split
    · intro j hj
      rcases List.mem_append.1 hj with hj | hj
      · exact hjobs1 j hj
      · simp at hj; subst hj; exact hsubs
    · exact hjobs1
  · intro d v hm
    obtain ⟨g, hg, ho⟩ := List.mem_filterMap.1 hm
    unfold pubOut at ho
    split at ho
    · rename_i root q _ hq
      split at ho
      · cases ho
      · simp only [Option.some.injEq, Out.publishDiagnostics.injEq] at ho
        obtain ⟨rfl, _⟩ := ho
        rw [hinj g hq] at hg
        exact hch hg
    · cases ho

/-- A closed document stays closed unless it is opened. -/
theorem says_closed {c c' : Client} {m : Msg} (h : Says c m c') (p : Bytes) (hc : c.docs p = none)
    (hm : ∀ v t, m ≠ .didOpen (some p) v t) : c'.docs p = none := by
  cases h with
  | openFile q v t =>
    have : p ≠ q := by rintro rfl; exact hm v t rfl
    simp only [Client.set, this, if_false]; exact hc
  | changeFile q v d es t' hd hes =>
    have : p ≠ q := by rintro rfl; rw [hc] at hd; cases hd
    simp only [Client.set, this, if_false]; exact hc
  | closeFile q =>
    simp only [Client.set]
    split
    · rfl
    · exact hc
  | _ => exact hc

/-- While a document stays closed and no work concerns it, nothing happens to its diagnostics. -/
theorem runFrom_closed {ps c c' steps} (env : Env) (hps : ps.length ≤ maxId) (hist : History c steps c')
    (hopen : ∀ p ∈ opened steps, p ∈ ps) (s : State) (h : Inv ps c s) (p : Bytes) (hc : c.docs p = none)
    (hp : p ∉ opened steps) (f : Nat) (hf : s.vfs.filePath f = some (.pathBuf p)) (hi : Idle f s) :
    ∃ s', runFrom env s steps = .running s' ∧ Inv ps c' s' ∧
      s'.diagnostics.diagnosticsFor f = s.diagnostics.diagnosticsFor f ∧
      ∃ new, s'.out = s.out ++ new ∧ ∀ d v, Out.publishDiagnostics (.pathBuf p) d v ∉ new := by
  induction hist generalizing s with
  | nil c => exact ⟨s, rfl, h, rfl, [], by simp, by simp⟩
  | @message c m c1 steps c2 cuts hsays hrest ih =>
    have ho : ∀ p v t, m = .didOpen (some p) v t → p ∈ ps := by
      rintro p v t rfl; exact hopen p (by simp [opened])
    rw [opened_cons] at hopen hp
    have hm : ∀ v t, m ≠ .didOpen (some p) v t := by
      rintro v t rfl; exact hp (by simp [opened])
    obtain ⟨s1, h1, hb, d1, d2, d3, d4, d5, d6⟩ := onMessage_ok h.toBase hps hsays ho
    obtain ⟨k1, ⟨new1, k2, k3⟩, _⟩ := onMessage_more h hsays h1
    obtain ⟨_, _, _, s2, _, h2, hinv, _⟩ := afterEvent_ok env cuts hb
    have hf1 : s1.vfs.filePath f = some (.pathBuf p) := by
      obtain ⟨l, hl⟩ := k1
      unfold Vfs.filePath at *
      rw [← hl, List.getElem?_append_left (List.getElem?_eq_some_iff.1 hf).1]
      exact hf
    have hc1 := says_closed hsays p hc hm
    obtain ⟨a1, a2, a3, new2, a4, a5⟩ := afterEvent_closed hb h2 p hc1 f hf1
      ⟨by rw [d3]; exact hi.jobs, by rw [d2]; exact hi.channel⟩ (by rw [d1, h.published]; simp)
    obtain ⟨s3, h3, h4, h5, new3, h6, h7⟩ := ih (fun q hq => hopen q (List.mem_append_right _ hq)) s2 hinv hc1
      (fun hq => hp (List.mem_append_right _ hq)) a2 a1
    refine ⟨s3, ?_, h4, by rw [h5, a3, d1], new1 ++ new2 ++ new3, by rw [h6, a4, k2]; simp, fun d v hm => ?_⟩
    · have hne : m ≠ .exit := by rintro rfl; cases hsays
      rw [runFrom]
      have : step env s (.message m cuts) = .running s2 := by
        cases m <;> first | exact absurd rfl hne | simp only [step, h1, Option.bind_some, h2]
      rw [this]
      exact h3
    · rcases List.mem_append.1 hm with hm | hm
      · rcases List.mem_append.1 hm with hm | hm
        · exact k3 _ _ _ hm
        · exact a5 d v hm
      · exact h7 d v hm
  | @tasks c steps c2 cuts hrest ih =>
    have ho' : ∀ p ∈ opened steps, p ∈ ps := fun p hp => hopen p (by simpa [opened] using hp)
    have hp' : p ∉ opened steps := fun hq => hp (by simpa [opened] using hq)
    rw [runFrom]
    simp only [step]
    by_cases he : s.channel.isEmpty = true
    · simp only [he, if_true]
      exact ih ho' s h hc hp' hf hi
    · simp only [he, Bool.false_eq_true, if_false]
      obtain ⟨hb, q1, hv, q3, q4, _, q6, _⟩ := onTasks_ok h.toBase
      obtain ⟨o1, o2⟩ := onTasks_other hi
      obtain ⟨_, _, _, s2, _, h2, hinv, _⟩ := afterEvent_ok env cuts hb
      obtain ⟨a1, a2, a3, new2, a4, a5⟩ := afterEvent_closed hb h2 p hc f (by rw [hv]; exact hf)
        ⟨by rw [q4]; exact hi.jobs, by rw [q6]; simp⟩ (fun hm => by have := o2 hm; rw [h.published] at this; simp at this)
      rw [h2]
      obtain ⟨s3, h3, h4, h5, new3, h6, h7⟩ := ih ho' s2 hinv hc hp' a2 a1
      refine ⟨s3, h3, h4, by rw [h5, a3, o1], new2 ++ new3, by rw [h6, a4, q1]; simp, fun d v hm => ?_⟩
      rcases List.mem_append.1 hm with hm | hm
      · exact a5 d v hm
      · exact h7 d v hm
  | finish i hrest ih =>
    have hkeep : (s.finishJob env i).diagnostics = s.diagnostics ∧ (s.finishJob env i).vfs = s.vfs ∧
        (s.finishJob env i).out = s.out := by
      unfold State.finishJob
      split
      · split <;> exact ⟨rfl, rfl, rfl⟩
      · exact ⟨rfl, rfl, rfl⟩
    obtain ⟨k1, k2, k3⟩ := hkeep
    rw [runFrom]
    simp only [step]
    obtain ⟨s3, h3, h4, h5, h6⟩ := ih (fun p hp => hopen p (by simpa [opened] using hp)) _ (finishJob_ok env i h) hc
      (fun hq => hp (by simpa [opened] using hq)) (by rw [k2]; exact hf) (idle_finishJob env i hi)
    exact ⟨s3, h3, h4, by rw [h5, k1], by rw [k3] at h6; exact h6⟩
  | deliver i hrest ih =>
    have hkeep : (s.deliverJob i).diagnostics = s.diagnostics ∧ (s.deliverJob i).vfs = s.vfs ∧
        (s.deliverJob i).out = s.out := by
      unfold State.deliverJob
      split <;> exact ⟨rfl, rfl, rfl⟩
    obtain ⟨k1, k2, k3⟩ := hkeep
    rw [runFrom]
    simp only [step]
    obtain ⟨s3, h3, h4, h5, h6⟩ := ih (fun p hp => hopen p (by simpa [opened] using hp)) _ (deliverJob_ok i h) hc
      (fun hq => hp (by simpa [opened] using hq)) (by rw [k2]; exact hf) (idle_deliverJob i hi)
    exact ⟨s3, h3, h4, by rw [h5, k1], by rw [k3] at h6; exact h6⟩

/-! ## Opened documents are known -/

theorem afterEvent_interner {ps c s s'} {env : Env} {cuts : Nat → Nat} (h : Base ps c s)
    (ha : s.afterEvent env cuts = some s') : s'.vfs.interner = s.vfs.interner := by
  obtain ⟨s1, b, subs, s2, hpc, ha', _, e1, _⟩ := afterEvent_ok env cuts h
  rw [ha] at ha'; cases ha'
  obtain ⟨s1', b', hpc', _, _, _, _, _, _, _, _, hvfs, _⟩ := processChanges_ok env cuts h
  rw [hpc] at hpc'; cases hpc'
  rw [e1, hvfs]; rfl

/-- The file store knows every document that was ever opened. -/
theorem runFrom_interned {ps c c' steps} (env : Env) (hps : ps.length ≤ maxId) (hist : History c steps c')
    (hopen : ∀ p ∈ opened steps, p ∈ ps) (s : State) (h : Inv ps c s) :
    ∃ s', runFrom env s steps = .running s' ∧ Inv ps c' s' ∧ (∀ q ∈ s.vfs.interner, q ∈ s'.vfs.interner) ∧
      ∀ p ∈ opened steps, VfsPath.pathBuf p ∈ s'.vfs.interner := by
  induction hist generalizing s with
  | nil c => exact ⟨s, rfl, h, fun _ h => h, by simp [opened]⟩
  | @message c m c1 steps c2 cuts hsays hrest ih =>
    have ho : ∀ p v t, m = .didOpen (some p) v t → p ∈ ps := by
      rintro p v t rfl; exact hopen p (by simp [opened])
    rw [opened_cons] at hopen
    obtain ⟨s1, h1, hb, _⟩ := onMessage_ok h.toBase hps hsays ho
    obtain ⟨k1, _, _⟩ := onMessage_more h hsays h1
    obtain ⟨_, _, _, s2, _, h2, hinv, _⟩ := afterEvent_ok env cuts hb
    have hint := afterEvent_interner hb h2
    obtain ⟨s3, h3, h4, h5, h6⟩ := ih (fun q hq => hopen q (List.mem_append_right _ hq)) s2 hinv
    refine ⟨s3, ?_, h4, fun q hq => h5 q (by rw [hint]; exact k1.subset hq), fun p hp => ?_⟩
    · have hne : m ≠ .exit := by rintro rfl; cases hsays
      rw [runFrom]
      have : step env s (.message m cuts) = .running s2 := by
        cases m <;> first | exact absurd rfl hne | simp only [step, h1, Option.bind_some, h2]
      rw [this]
      exact h3
    · rw [opened_cons] at hp
      rcases List.mem_append.1 hp with hp | hp
      · refine h5 _ ?_
        rw [hint]
        cases hsays with
        | openFile q v t =>
          simp [opened] at hp
          subst hp
          have hat := hb.text p ⟨v, t⟩ (by simp [Client.set])
          unfold at_ at hat
          cases hi : indexOf (VfsPath.pathBuf p) s1.vfs.interner with
          | none => rw [hi] at hat; simp at hat
          | some j => exact List.mem_of_getElem? (indexOf_some hi)
        | _ => simp [opened] at hp
      · exact h6 p hp
  | @tasks c steps c2 cuts hrest ih =>
    have ho' : ∀ p ∈ opened steps, p ∈ ps := fun p hp => hopen p (by simpa [opened] using hp)
    rw [runFrom]
    simp only [step]
    by_cases he : s.channel.isEmpty = true
    · simp only [he, if_true]
      obtain ⟨s3, h3, h4, h5, h6⟩ := ih ho' s h
      exact ⟨s3, h3, h4, h5, fun p hp => h6 p (by simpa [opened] using hp)⟩
    · simp only [he, Bool.false_eq_true, if_false]
      obtain ⟨hb, _, hv, _⟩ := onTasks_ok h.toBase
      obtain ⟨_, _, _, s2, _, h2, hinv, _⟩ := afterEvent_ok env cuts hb
      have hint := afterEvent_interner hb h2
      rw [h2]
      obtain ⟨s3, h3, h4, h5, h6⟩ := ih ho' s2 hinv
      exact ⟨s3, h3, h4, fun q hq => h5 q (by rw [hint, hv]; exact hq), fun p hp => h6 p (by simpa [opened] using hp)⟩
  | finish i hrest ih =>
    have hkeep : (s.finishJob env i).vfs = s.vfs := by
      unfold State.finishJob
      split
      · split <;> rfl
      · rfl
    rw [runFrom]
    simp only [step]
    obtain ⟨s3, h3, h4, h5, h6⟩ := ih (fun p hp => hopen p (by simpa [opened] using hp)) _ (finishJob_ok env i h)
    exact ⟨s3, h3, h4, by rw [hkeep] at h5; exact h5, fun p hp => h6 p (by simpa [opened] using hp)⟩
  | deliver i hrest ih =>
    have hkeep : (s.deliverJob i).vfs = s.vfs := by
      unfold State.deliverJob
      split <;> rfl
    rw [runFrom]
    simp only [step]
    obtain ⟨s3, h3, h4, h5, h6⟩ := ih (fun p hp => hopen p (by simpa [opened] using hp)) _ (deliverJob_ok i h)
    exact ⟨s3, h3, h4, by rw [hkeep] at h5; exact h5, fun p hp => h6 p (by simpa [opened] using hp)⟩

/-! ## C76 -/

/-- **C76, partial.**  Once a document is closed and all work has been finished and received,
whatever happens until it is opened again: the server publishes nothing for it.  So the client
keeps the diagnostics it had then, and they are gone exactly if the last ones sent were empty.
Missing: that they are empty, which fails, see `closed_documents_keep_errors`. -/
theorem closed_documents_are_left_alone_partial (env : Env) (cfg : SourceRootConfig) (dyn : Bool)
    (hcfg : Configured cfg) (pre post : List Step) (c c' : Client) (hpre : History (Client.init dyn) pre c)
    (hpost : History c post c') (hfew : FewPaths (pre ++ post)) (s : State)
    (hrun : run env cfg dyn pre = .running s) (hjobs : s.jobs = []) (hchan : s.channel = [])
    (p : Bytes) (hp : p ∈ opened pre) (hclosed : c.docs p = none) (hnot : p ∉ opened post) :
    ∃ s', run env cfg dyn (pre ++ post) = .running s' ∧
      (∃ new, s'.out = s.out ++ new ∧ ∀ d v, Out.publishDiagnostics (.pathBuf p) d v ∉ new) ∧
      lastPublished (.pathBuf p) s'.out = lastPublished (.pathBuf p) s.out ∧
      ∀ f, s.vfs.fileId (.pathBuf p) = some (some f) →
        s'.diagnostics.diagnosticsFor f = s.diagnostics.diagnosticsFor f := by
  obtain ⟨ps, h1, h2⟩ := hfew
  have h2a : ∀ q ∈ opened pre, q ∈ ps := fun q hq => h2 q (by rw [opened_append]; exact List.mem_append_left _ hq)
  have h2b : ∀ q ∈ opened post, q ∈ ps := fun q hq => h2 q (by rw [opened_append]; exact List.mem_append_right _ hq)
  obtain ⟨s0, e0, hinv, _, hin⟩ := runFrom_interned env h1 hpre h2a _ (init_ok ps cfg dyn hcfg)
  have e0' := hrun
  unfold run at e0'
  rw [e0'] at e0; cases e0
  obtain ⟨f, hf⟩ := List.getElem?_of_mem (hin p hp)
  have hfp : s.vfs.filePath f = some (.pathBuf p) := hf
  obtain ⟨s', e1, _, e3, new, e4, e5⟩ := runFrom_closed env h1 hpost h2b s hinv p hclosed hnot f hfp
    ⟨by rw [hjobs]; simp, by rw [hchan]; simp⟩
  refine ⟨s', ?_, ⟨new, e4, e5⟩, ?_, fun g hg => ?_⟩
  · unfold run
    rw [runFrom_append, e0']
    exact e1
  · rw [e4, lastPublished_append, lastPublished_none _ _ e5, Option.none_or]
  · have h3 := (fileId_some hinv.ok hg).1
    rw [indexOf_of_getElem hinv.ok.nodup hf] at h3
    cases h3
    exact e3

/-- A document with an error is opened, analysed and closed, and the work after that is done. -/
def closedSteps : List Step :=
  quietSteps ++ [.message (.didClose (some pathA)) (fun _ => 0), .finish 0, .deliver 0, .tasks (fun _ => 0)]

theorem closed_history : History (Client.init false) closedSteps
    (((Client.init false).set pathA (some ⟨1, ['x']⟩)).set pathA none) :=
  .message _ (.openFile _ _ _ _) (.finish _ (.deliver _ (.tasks _ (.message _ (.closeFile _ _) (.finish _ (.deliver _
    (.tasks _ (.nil _))))))))

/-- The history meets the hypotheses of the partial theorem, with a further document opened later. -/
example : let cfg : SourceRootConfig := ⟨⟨1, []⟩, [0]⟩
    Configured cfg ∧ pathA ∈ opened closedSteps ∧
    FewPaths (closedSteps ++ [.message (.didOpen (some pathB) 1 ['y']) (fun _ => 0)]) ∧
    ∃ s, run sampleEnv cfg false closedSteps = .running s ∧ s.jobs = [] ∧ s.channel = [] :=
  ⟨default_configured, by decide, ⟨[pathA, pathB], by decide, by decide⟩, _, rfl, rfl, rfl⟩

/-- **C76 is violated.**  A document of a local root is opened with an error, analysed, and closed;
all work is finished and received.  In no continuation without opening it again does the client's
list of its errors become empty. -/
theorem closed_documents_keep_errors :
    ∃ (env : Env) (cfg : SourceRootConfig) (pre : List Step) (c : Client) (s : State) (p : Bytes),
      Configured cfg ∧ LocalPath cfg (.pathBuf p) ∧ History (Client.init false) pre c ∧ c.docs p = none ∧
      run env cfg false pre = .running s ∧ s.jobs = [] ∧ s.channel = [] ∧
      ∀ post c' s', History c post c' → FewPaths (pre ++ post) → p ∉ opened post →
        run env cfg false (pre ++ post) = .running s' →
        (lastPublished (.pathBuf p) s'.out).map List.length = some 1 := by
  refine ⟨sampleEnv, ⟨⟨1, []⟩, [0]⟩, closedSteps, _, _, pathA, default_configured, rfl, closed_history, rfl, rfl, rfl,
    rfl, ?_⟩
  intro post c' s' hp hf hn hr
  obtain ⟨s2, h1, _, h3, _⟩ := closed_documents_are_left_alone_partial sampleEnv ⟨⟨1, []⟩, [0]⟩ false default_configured
    closedSteps post _ c' closed_history hp hf _ rfl rfl rfl pathA (by decide) rfl hn
  rw [hr] at h1; cases h1
  rw [h3]
  rfl

end Verif.Server
