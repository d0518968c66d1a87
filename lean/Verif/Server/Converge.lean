import Verif.Server.Responses

/-!
Stored and published diagnostics (C26, C28).
-/

set_option autoImplicit false

namespace Verif.Server

open Verif.FileSet Verif.Vfs Verif.Db Verif.Diagnostics Verif.LineEndings Verif.Server.Spec

/-! ## Specification -/

namespace Spec

/-- The diagnostics in the last publication for a path. -/
def lastPublished (p : VfsPath) : List Out → Option (List Diagnostic)
  | [] => none
  | .publishDiagnostics q d _ :: out => (lastPublished p out).or (if q = p then some d else none)
  | _ :: out => lastPublished p out

/-- The workers send their results in the order in which they were started. -/
def InOrder (steps : List Step) : Prop := ∀ i, Step.deliver i ∈ steps → i = 0

end Spec

open Spec

theorem lastPublished_append (p : VfsPath) (a b : List Out) :
    lastPublished p (a ++ b) = (lastPublished p b).or (lastPublished p a) := by
  induction a with
  | nil => simp [lastPublished]
  | cons o os ih =>
    cases o with
    | publishDiagnostics q d v => simp only [List.cons_append, lastPublished, ih, Option.or_assoc]
    | response => exact ih
    | registerCapability => exact ih

theorem lastPublished_none (p : VfsPath) (out : List Out) (h : ∀ d v, Out.publishDiagnostics p d v ∉ out) :
    lastPublished p out = none := by
  induction out with
  | nil => rfl
  | cons o os ih =>
    have ih := ih (fun d v hm => h d v (by simp [hm]))
    cases o with
    | publishDiagnostics q d v =>
      have : q ≠ p := by rintro rfl; exact h d v (by simp)
      simp [lastPublished, ih, this]
    | response => exact ih
    | registerCapability => exact ih

/-! ## C26 fails: nothing is ever published -/

/-- All roots are library roots. -/
structure AllLibrary (s : State) : Prop where
  cfg : s.sourceRootConfig.localFilesets = []
  roots : ∀ k r, s.db.sourceRoot.get k = some r → r.isLibrary = true
  out : ∀ p d v, Out.publishDiagnostics p d v ∉ s.out

theorem publishFold_library {files : List Nat} {s s' : State} (h : AllLibrary s)
    (hp : files.foldlM State.publish s = some s') : s' = s := by
  induction files with
  | nil => simp at hp; exact hp.symm
  | cons f fs ih =>
    rw [List.foldlM_cons] at hp
    cases h1 : s.publish f with
    | none => rw [h1] at hp; simp at hp
    | some s1 =>
      rw [h1] at hp
      have : s1 = s := by
        unfold State.publish at h1
        split at h1
        · simp at h1
        split at h1
        · simp at h1
        rename_i root hr
        rw [if_pos (h.roots _ _ hr)] at h1
        simp at h1; exact h1.symm
      subst this
      exact ih hp

theorem partition_library {cfg : SourceRootConfig} (h : cfg.localFilesets = []) {v : Vfs VfsPath Text}
    {roots : List SourceRoot} (hp : cfg.partition v = some roots) : ∀ r ∈ roots, r.isLibrary = true := by
  unfold SourceRootConfig.partition at hp
  split at hp
  · simp at hp
  · simp only [Option.some.injEq] at hp
    subst hp
    intro r hr
    obtain ⟨i, hi, rfl⟩ := List.getElem_of_mem hr
    simp [h]

theorem afterEvent_library {env cuts} {s s' : State} (h : AllLibrary s) (ha : s.afterEvent env cuts = some s') :
    AllLibrary s' := by
  unfold State.afterEvent at ha
  split at ha
  · simp at ha
  · rename_i s1 b hp
    have h1 : AllLibrary s1 := by
      obtain ⟨_, _, ho, _, hcfg⟩ := processChanges_calm hp
      refine ⟨by rw [hcfg]; exact h.cfg, ?_, by rw [ho]; exact h.out⟩
      unfold State.processChanges at hp
      simp only at hp
      split at hp
      · simp only [Option.some.injEq, Prod.mk.injEq] at hp; rw [← hp.1]; exact h.roots
      split at hp
      · simp at hp
      split at hp
      · simp at hp
      rename_i roots hroots
      split at hp
      · simp at hp
      rename_i db hdb
      simp only [Option.some.injEq, Prod.mk.injEq] at hp
      rw [← hp.1]
      intro k r hr
      obtain ⟨_, d2, d3⟩ := applyChange_spec hdb
      cases hrs : roots with
      | none => rw [(d2 hrs).2.1] at hr; exact h.roots k r hr
      | some rs =>
        have hpart : s.sourceRootConfig.partition s.vfs.takeChanges.1 = some rs := by
          rw [hrs] at hroots
          split at hroots
          · simpa using hroots
          · simp at hroots
        have hr' := hr
        rw [(d3 rs hrs).1 k] at hr'
        split at hr'
        · exact partition_library h.cfg hpart r (List.mem_of_getElem? hr')
        · exact h.roots k r hr'
    simp only at ha
    split at ha
    · simp at ha
    · rename_i s2 hu
      have h2 : AllLibrary s2 := by
        split at hu
        · obtain ⟨subs, rfl⟩ := updateDiagnostics_calm hu; exact ⟨h1.cfg, h1.roots, h1.out⟩
        · simp at hu; subst hu; exact ⟨h1.cfg, h1.roots, h1.out⟩
      unfold State.publishAll at ha
      split at ha
      · simp at ha; subst ha; exact h2
      · rename_i c files _
        have h3 : AllLibrary { s2 with diagnostics := c } := ⟨h2.cfg, h2.roots, h2.out⟩
        rw [publishFold_library h3 ha]
        exact h3

theorem onMessage_keeps {s s' : State} {m : Msg} (hm : s.onMessage m = some s') :
    s'.db = s.db ∧ s'.sourceRootConfig = s.sourceRootConfig := by
  cases m with
  | shutdown id ok =>
    simp only [State.onMessage, Option.some.injEq] at hm
    subst hm
    unfold State.onRequest State.registerRequest State.respond State.send
    simp only
    split
    · split <;> exact ⟨rfl, rfl⟩
    · cases ok <;> simp only <;> split <;> exact ⟨rfl, rfl⟩
  | otherRequest id =>
    simp only [State.onMessage, Option.some.injEq] at hm
    subst hm
    unfold State.onRequest State.registerRequest State.respond State.send
    simp only
    split <;> split <;> exact ⟨rfl, rfl⟩
  | cancel id =>
    simp only [State.onMessage, Option.some.injEq] at hm
    subst hm
    unfold State.cancel State.send
    split <;> exact ⟨rfl, rfl⟩
  | workDoneProgressCancel | exit | otherNotification =>
    simp only [State.onMessage, Option.some.injEq] at hm
    subst hm
    exact ⟨rfl, rfl⟩
  | malformed => simp [State.onMessage] at hm
  | response id =>
    simp only [State.onMessage, State.completeRequest] at hm
    split at hm
    · simp at hm; subst hm; exact ⟨rfl, rfl⟩
    · simp at hm
  | didClose uri =>
    simp only [State.onMessage, Option.some.injEq, State.didClose] at hm
    split at hm <;> subst hm <;> exact ⟨rfl, rfl⟩
  | didOpen uri v t =>
    simp only [State.onMessage, State.didOpen] at hm
    split at hm
    · simp at hm; subst hm; exact ⟨rfl, rfl⟩
    · split at hm
      · simp at hm
      · simp at hm; subst hm; exact ⟨rfl, rfl⟩
  | didChange uri v cs =>
    simp only [State.onMessage, State.didChange] at hm
    split at hm
    · simp at hm; subst hm; exact ⟨rfl, rfl⟩
    · split at hm
      · simp at hm; subst hm; exact ⟨rfl, rfl⟩
      · split at hm
        · split at hm
          · simp at hm
          · split at hm
            · simp at hm
            · split at hm
              · simp at hm
              · simp only [Option.some.injEq] at hm; subst hm; exact ⟨rfl, rfl⟩
        · simp at hm

theorem onTasks_keeps (s : State) : s.onTasks.db = s.db ∧ s.onTasks.sourceRootConfig = s.sourceRootConfig := by
  unfold State.onTasks
  have gen : ∀ (ts : List Task) (s0 : State), (ts.foldl State.onTask s0).db = s0.db ∧
      (ts.foldl State.onTask s0).sourceRootConfig = s0.sourceRootConfig := by
    intro ts
    induction ts with
    | nil => intro s0; exact ⟨rfl, rfl⟩
    | cons t ts ih =>
      intro s0
      obtain ⟨h1, h2⟩ := ih (s0.onTask t)
      rw [List.foldl_cons, h1, h2]
      cases t with
      | response id r => simp only [State.onTask, State.respond, State.send]; split <;> exact ⟨rfl, rfl⟩
      | diagnostics r => exact ⟨rfl, rfl⟩
  exact gen s.channel _

theorem step_message {env s s' m cuts} (hs : step env s (.message m cuts) = .running s') :
    ∃ s1, s.onMessage m = some s1 ∧ s1.afterEvent env cuts = some s' := by
  have hne : m ≠ .exit := by rintro rfl; simp [step] at hs
  have : step env s (.message m cuts) = match (s.onMessage m).bind (State.afterEvent env cuts) with
      | none => .panicked
      | some s => .running s := by
    cases m <;> first | exact absurd rfl hne | rfl
  rw [this] at hs
  cases ho : s.onMessage m with
  | none => rw [ho] at hs; simp at hs
  | some s1 =>
    rw [ho] at hs
    simp only [Option.bind_some] at hs
    split at hs
    · simp at hs
    · rename_i h2; simp at hs; subst hs; exact ⟨s1, rfl, h2⟩

theorem step_library {env} {s s' : State} {st : Step} (q : Quiet s) (h : AllLibrary s) (hs : step env s st = .running s') :
    AllLibrary s' := by
  cases st with
  | disconnect => simp [step] at hs
  | finish i =>
    simp only [step, Outcome.running.injEq] at hs
    subst hs
    unfold State.finishJob
    split
    · split <;> exact ⟨h.cfg, h.roots, h.out⟩
    · exact h
  | deliver i =>
    simp only [step, Outcome.running.injEq] at hs
    subst hs
    unfold State.deliverJob
    split <;> exact ⟨h.cfg, h.roots, h.out⟩
  | tasks cuts =>
    simp only [step] at hs
    split at hs
    · simp at hs; subst hs; exact h
    · split at hs
      · simp at hs
      · rename_i ha
        simp at hs; subst hs
        obtain ⟨_, _, _, h4, _⟩ := onTasks_quiet q
        obtain ⟨k1, k2⟩ := onTasks_keeps s
        exact afterEvent_library ⟨by rw [k2]; exact h.cfg, by rw [k1]; exact h.roots, by rw [h4]; exact h.out⟩ ha
  | message m cuts =>
    obtain ⟨s1, hm, ha⟩ := step_message hs
    obtain ⟨_, _, _, h4⟩ := onMessage_quiet q hm
    obtain ⟨k1, k2⟩ := onMessage_keeps hm
    refine afterEvent_library ⟨by rw [k2]; exact h.cfg, by rw [k1]; exact h.roots, ?_⟩ ha
    intro p d v hmem
    rcases h4 with ⟨id, ok, _, rfl⟩ | ⟨id, _, rfl⟩ | ⟨_, _, n3, _⟩
    · simp at hmem; exact h.out p d v hmem
    · simp at hmem; exact h.out p d v hmem
    · rw [n3] at hmem; exact h.out p d v hmem

/-- **C26 is violated.**  The server always runs with the default configuration of source roots, in
which every file belongs to a library, and diagnostics of library files are not sent: along every
history, with every analysis and schedule, no diagnostics are ever published. -/
theorem nothing_is_published (env : Env) (dyn : Bool) (steps : List Step) (s : State)
    (hrun : run env SourceRootConfig.default dyn steps = .running s) (p : VfsPath) (d : List Diagnostic) (v : Option Int) :
    Out.publishDiagnostics p d v ∉ s.out := by
  have gen : ∀ (steps : List Step) (s0 : State), Quiet s0 → AllLibrary s0 → runFrom env s0 steps = .running s →
      AllLibrary s := by
    intro steps
    induction steps with
    | nil => intro s0 _ h hr; simp [runFrom] at hr; subst hr; exact h
    | cons st steps ih =>
      intro s0 q h hr
      rw [runFrom] at hr
      cases hs : step env s0 st with
      | running s1 => rw [hs] at hr; exact ih s1 (step_quiet q hs).1 (step_library q h hs) hr
      | exited s1 => rw [hs] at hr; simp at hr
      | failed s1 => rw [hs] at hr; simp at hr
      | panicked => rw [hs] at hr; simp at hr
  refine (gen steps _ (quiet_init _ dyn) ⟨rfl, by simp [State.init, Db.new, AMap.get], ?_⟩ hrun).out p d v
  cases dyn <;> simp [State.init]

/-- A history with a document that has an error, all work done and received. -/
def quietSteps : List Step :=
  [.message (.didOpen (some pathA) 1 ['x']) (fun _ => 0), .finish 0, .deliver 0, .tasks (fun _ => 0)]

example : ∃ s f, run sampleEnv SourceRootConfig.default false quietSteps = .running s ∧ s.jobs = [] ∧ s.channel = [] ∧
    s.vfs.fileId (.pathBuf pathA) = some (some f) ∧ (s.diagnostics.diagnosticsFor f).length = 1 ∧ s.out = [] :=
  ⟨_, 0, rfl, rfl, rfl, rfl, rfl, rfl⟩

/-! ## Published diagnostics of local files -/

/-- The path belongs to a local file set. -/
def LocalPath (cfg : SourceRootConfig) (p : VfsPath) : Prop := cfg.localFilesets.contains (cfg.fsc.classify p) = true

structure Pub (s : State) : Prop where
  check : s.diagnostics.check = []
  nativeKnown : ∀ f, s.diagnostics.native.get f ≠ none → Known s f
  outKnown : ∀ p d v, Out.publishDiagnostics p d v ∈ s.out → p ∈ s.vfs.interner
  pub : ∀ f p, s.vfs.filePath f = some p → LocalPath s.sourceRootConfig p → f ∉ s.diagnostics.changes →
    (lastPublished p s.out).getD [] = s.diagnostics.diagnosticsFor f

/-- The messages sent by publishing. -/
theorem lastPublished_pub {s : State} (ok : Ok s.vfs) (files : List Nat) (f : Nat) (p : VfsPath)
    (hf : s.vfs.filePath f = some p) :
    (f ∉ files → lastPublished p (files.filterMap (pubOut s)) = none) ∧
    (f ∈ files → (∃ k root, s.db.fileSourceRoot.get f = some k ∧ s.db.sourceRoot.get k = some root ∧ root.isLibrary = false) →
      lastPublished p (files.filterMap (pubOut s)) = some (s.diagnostics.diagnosticsFor f)) := by
  have hshape : ∀ g o, pubOut s g = some o → ∃ q v, s.vfs.filePath g = some q ∧
      o = .publishDiagnostics q (s.diagnostics.diagnosticsFor g) v := by
    intro g o ho
    unfold pubOut at ho
    split at ho
    · rename_i root q _ hq
      split at ho
      · simp at ho
      · simp only [Option.some.injEq] at ho; exact ⟨q, _, hq, ho.symm⟩
    · simp at ho
  have hinj : ∀ g, s.vfs.filePath g = some p → g = f := by
    intro g hg
    have h1 := indexOf_of_getElem ok.nodup hg
    rw [indexOf_of_getElem ok.nodup hf] at h1
    simpa using h1.symm
  constructor
  · intro hn
    apply lastPublished_none
    intro d v hm
    obtain ⟨g, hg, ho⟩ := List.mem_filterMap.1 hm
    obtain ⟨q, v', hq, he⟩ := hshape g _ ho
    simp at he
    obtain ⟨rfl, _⟩ := he
    rw [hinj g hq] at hg
    exact hn hg
  · intro hm ⟨k, root, r1, r2, r3⟩
    have hpf : pubOut s f = some (.publishDiagnostics p (s.diagnostics.diagnosticsFor f) (s.memDocs.docs.get p)) := by
      unfold pubOut; rw [r1]; simp [r2, hf, r3]
    induction files with
    | nil => simp at hm
    | cons g gs ih =>
      by_cases hgs : f ∈ gs
      · have := ih hgs
        rw [List.filterMap_cons]
        split
        · exact this
        · rename_i o ho
          obtain ⟨q, v', hq, rfl⟩ := hshape g _ ho
          simp [lastPublished, this]
      · have hg : f = g := by simpa [hgs] using hm
        subst hg
        rw [List.filterMap_cons, hpf]
        simp only [lastPublished, if_true]
        have hnone : lastPublished p (gs.filterMap (pubOut s)) = none := by
          apply lastPublished_none
          intro d v hm
          obtain ⟨g, hg, ho⟩ := List.mem_filterMap.1 hm
          obtain ⟨q, v', hq, he⟩ := hshape g _ ho
          simp at he
          obtain ⟨rfl, _⟩ := he
          rw [hinj g hq] at hg
          exact hgs hg
        simp [hnone]

theorem afterEvent_pub {ps c s} (env : Env) (cuts : Nat → Nat) (h : Base ps c s) (hp : Pub s) {s' : State}
    (ha : s.afterEvent env cuts = some s') : Pub s' := by
  obtain ⟨s1, b, subs, s2, hpc, ha', hinv, e1, e2, e3, e4, e5, e6, e7, e8, e9, e10, e11⟩ := afterEvent_ok env cuts h
  rw [ha] at ha'; simp at ha'; subst ha'
  obtain ⟨s1', b', hpc', _, _, _, _, _, _, _, _, hvfs, _⟩ := processChanges_ok env cuts h
  rw [hpc] at hpc'; simp at hpc'; obtain ⟨rfl, rfl⟩ := hpc'
  have hint : s'.vfs.interner = s.vfs.interner := by rw [e1, hvfs]; rfl
  have hdata : s'.vfs.data = s.vfs.data := by rw [e1, hvfs]; rfl
  have hfp : ∀ f, s'.vfs.filePath f = s.vfs.filePath f := by intro f; unfold Vfs.filePath; rw [hint]
  have hdf : ∀ f, s'.diagnostics.diagnosticsFor f = s.diagnostics.diagnosticsFor f := by
    intro f; rw [e10]; rfl
  refine ⟨by rw [e10]; exact hp.check, ?_, ?_, ?_⟩
  · intro f hf
    rw [e10] at hf
    unfold Known; rw [hdata]
    exact hp.nativeKnown f hf
  · intro p d v hm
    rw [e11] at hm
    rw [hint]
    rcases List.mem_append.1 hm with hm | hm
    · exact hp.outKnown p d v hm
    · obtain ⟨g, hg, ho⟩ := List.mem_filterMap.1 hm
      unfold pubOut at ho
      split at ho
      · rename_i root q _ hq
        split at ho
        · simp at ho
        · simp at ho
          rw [hfp] at hq
          obtain ⟨rfl, _⟩ := ho
          exact List.mem_of_getElem? hq
      · simp at ho
  · intro f p hf hl _
    obtain ⟨l1, l2⟩ := lastPublished_pub (s := s') hinv.ok s.diagnostics.changes f p hf
    rw [e11, lastPublished_append]
    by_cases hm : f ∈ s.diagnostics.changes
    · have hk : Known s' f := (known_iff hinv.toBase f).2 ⟨p, hf⟩
      have hroot : ∃ k root, s'.db.fileSourceRoot.get f = some k ∧ s'.db.sourceRoot.get k = some root ∧
          root.isLibrary = false := by
        rcases hinv.rooted f hk with ⟨r, hr, _⟩ | ⟨q, root, q1, q2, q3, q4⟩
        · rw [hinv.drained] at hr; simp at hr
        · rw [hf] at q1; simp at q1; subst q1
          exact ⟨_, root, q2, q3, by rw [q4]; unfold LocalPath at hl; rw [hl]; rfl⟩
      rw [l2 hm hroot]; rfl
    · rw [l1 hm, Option.none_or, hdf]
      rw [hfp] at hf
      rw [e7] at hl
      exact hp.pub f p hf hl hm

/-- What else a message does. -/
theorem onMessage_more {ps c c' s m s'} (h : Inv ps c s) (hs : Says c m c') (hm : s.onMessage m = some s') :
    s.vfs.interner <+: s'.vfs.interner ∧
    (∃ new, s'.out = s.out ++ new ∧ ∀ p d v, Out.publishDiagnostics p d v ∉ new) ∧
    (s'.memDocs.addedOrRemoved = false → s'.vfs.changes = [] →
      (∀ p, p ∈ s'.memDocs.docs.keys ↔ p ∈ s.memDocs.docs.keys) ∧ s'.vfs.fileId = s.vfs.fileId) := by
  cases hs with
  | shutdown id b =>
    simp only [State.onMessage, Option.some.injEq] at hm
    rw [onRequest_spec _ _ _ h.incoming] at hm
    subst hm
    exact ⟨List.prefix_refl _, ⟨[_], rfl, by simp⟩, fun _ _ => ⟨fun _ => Iff.rfl, rfl⟩⟩
  | otherRequest id =>
    simp only [State.onMessage, Option.some.injEq] at hm
    rw [onRequest_spec _ _ _ h.incoming] at hm
    subst hm
    exact ⟨List.prefix_refl _, ⟨[_], rfl, by simp⟩, fun _ _ => ⟨fun _ => Iff.rfl, rfl⟩⟩
  | cancel id =>
    simp only [State.onMessage, Option.some.injEq] at hm
    rw [cancel_spec _ _ h.incoming] at hm
    subst hm
    exact ⟨List.prefix_refl _, ⟨[], by simp, by simp⟩, fun _ _ => ⟨fun _ => Iff.rfl, rfl⟩⟩
  | workDoneProgressCancel | otherNotification | openOther | changeOther | closeOther =>
    simp only [State.onMessage, State.didOpen, State.didChange, State.didClose, Option.some.injEq] at hm
    subst hm
    exact ⟨List.prefix_refl _, ⟨[], by simp, by simp⟩, fun _ _ => ⟨fun _ => Iff.rfl, rfl⟩⟩
  | response id hid =>
    simp only [State.onMessage, State.completeRequest] at hm
    split at hm
    · simp at hm; subst hm
      exact ⟨List.prefix_refl _, ⟨[], by simp, by simp⟩, fun _ _ => ⟨fun _ => Iff.rfl, rfl⟩⟩
    · simp at hm
  | openFile p v t =>
    simp only [State.onMessage, State.didOpen] at hm
    split at hm
    · simp at hm
    · rename_i vfs b hset
      simp at hm; subst hm
      obtain ⟨_, k2, _⟩ := set_spec h.ok hset
      refine ⟨k2, ⟨[], by simp, by simp⟩, fun ha => ?_⟩
      simp [MemDocs.insert] at ha
  | closeFile p =>
    simp only [State.onMessage, State.didClose, Option.some.injEq] at hm
    subst hm
    refine ⟨List.prefix_refl _, ⟨[], by simp, by simp⟩, fun ha => ?_⟩
    simp [MemDocs.remove] at ha
  | changeUnopened p v cs hn =>
    simp only [State.onMessage, State.didChange] at hm
    rw [h.docs, hn] at hm
    simp at hm; subst hm
    exact ⟨List.prefix_refl _, ⟨[], by simp, by simp⟩, fun _ _ => ⟨fun _ => Iff.rfl, rfl⟩⟩
  | changeFile p v d es t' hd hes =>
    simp only [State.onMessage, State.didChange] at hm
    have hget : s.memDocs.docs.get (VfsPath.pathBuf p) = some d.version := by rw [h.docs, hd]; rfl
    rw [hget] at hm
    simp only at hm
    split at hm
    · split at hm
      · simp at hm
      · split at hm
        · simp at hm
        · split at hm
          · simp at hm
          · rename_i vfs b hset
            simp only [Option.some.injEq] at hm; subst hm
            obtain ⟨k1, k2, _, k4, k5, k6⟩ := set_spec h.ok hset
            refine ⟨k2, ⟨[], by simp, by simp⟩, fun _ hch => ⟨fun q => ?_, ?_⟩⟩
            · simp only [AMap.mem_keys, AMap.get_insert]
              by_cases hq : VfsPath.pathBuf p = q
              · subst hq; simp [hget]
              · simp [hq]
            · -- no record was added, so the text did not change
              cases hk : kindOf (at_ s.vfs (.pathBuf p)) (some ‹_›) with
              | some k =>
                obtain ⟨_, i, _, e2, _⟩ := k5 k hk
                simp only at hch
                rw [e2] at hch
                simp at hch
              | none =>
                obtain ⟨_, _, e⟩ := k6 hk
                have hat := h.text p d hd
                have hpin : VfsPath.pathBuf p ∈ s.vfs.interner := by
                  unfold at_ at hat
                  cases hi : indexOf (VfsPath.pathBuf p) s.vfs.interner with
                  | none => rw [hi] at hat; simp at hat
                  | some j => exact List.mem_of_getElem? (indexOf_some hi)
                have hint : vfs.interner = s.vfs.interner := by
                  obtain ⟨ext, hext⟩ := k2
                  have hsub : ∀ x ∈ vfs.interner, x ∈ s.vfs.interner := by
                    intro x hx
                    rcases set_interner h.ok hset hx with rfl | hx
                    · exact hpin
                    · exact hx
                  have hle := List.Nodup.length_le_of_subset k1.nodup hsub
                  rw [← hext] at hle ⊢
                  rw [List.length_append] at hle
                  have : ext = [] := List.eq_nil_of_length_eq_zero (by omega)
                  simp [this]
                funext q
                show vfs.fileId q = s.vfs.fileId q
                rw [fileId_eq _ k1, fileId_eq _ h.ok]
                unfold at_
                rw [hint]
                cases indexOf q s.vfs.interner with
                | none => rfl
                | some j => simp only [e]
    · simp at hm

theorem onMessage_pub {ps c c' s m s'} (h : Inv ps c s) (hp : Pub s) (hs : Says c m c') (hm : s.onMessage m = some s')
    (hb : Base ps c' s') (hdiag : s'.diagnostics = s.diagnostics) (hcfg : s'.sourceRootConfig = s.sourceRootConfig) :
    Pub s' := by
  obtain ⟨h1, ⟨new, hn1, hn2⟩, _⟩ := onMessage_more h hs hm
  have hlen : s.vfs.data.length ≤ s'.vfs.data.length := by
    rw [h.ok.len, hb.ok.len]; exact h1.length_le
  refine ⟨by rw [hdiag]; exact hp.check, ?_, ?_, ?_⟩
  · intro f hf; rw [hdiag] at hf; exact Nat.lt_of_lt_of_le (hp.nativeKnown f hf) hlen
  · intro p d v hmem
    rw [hn1] at hmem
    rcases List.mem_append.1 hmem with hmem | hmem
    · exact h1.subset (hp.outKnown p d v hmem)
    · exact absurd hmem (hn2 p d v)
  · intro f p hf hl _
    rw [hn1, lastPublished_append, lastPublished_none _ _ (hn2 p), Option.none_or, hdiag]
    rcases Nat.lt_or_ge f s.vfs.interner.length with hlt | hge
    · have hold : s.vfs.filePath f = some p := by
        have h2 : s.vfs.interner[f]? = some s.vfs.interner[f] := List.getElem?_eq_getElem hlt
        have h3 := prefix_getElem? h1 h2
        unfold Vfs.filePath at hf ⊢
        rw [h3] at hf
        rw [h2]; exact hf
      exact hp.pub f p hold (by rw [hcfg] at hl; exact hl) (by rw [h.published]; simp)
    · have hnew : p ∉ s.vfs.interner := by
        intro hin
        obtain ⟨j, hj⟩ := List.getElem?_of_mem hin
        have hj' := prefix_getElem? h1 hj
        have e1 := indexOf_of_getElem hb.ok.nodup hj'
        have e2 := indexOf_of_getElem hb.ok.nodup hf
        rw [e1] at e2
        simp at e2
        have := (List.getElem?_eq_some_iff.1 hj).1
        omega
      have hn : lastPublished p s.out = none :=
        lastPublished_none _ _ (fun d v hm => hnew (hp.outKnown p d v hm))
      have hnat : s.diagnostics.native.get f = none := by
        cases hx : s.diagnostics.native.get f with
        | none => rfl
        | some x =>
          have := hp.nativeKnown f (by simp [hx])
          unfold Known at this; rw [h.ok.len] at this; omega
      rw [hn]
      unfold Collection.diagnosticsFor
      rw [hnat, hp.check]
      rfl

/-- Setting diagnostics. -/
theorem setNative_facts (c : Collection) (f : Nat) (ds : List Diagnostic) :
    (c.setNativeDiagnostics f ds).check = c.check ∧
    (∀ g, (c.setNativeDiagnostics f ds).native.get g ≠ none → c.native.get g ≠ none ∨ g = f) ∧
    (∀ g, g ∉ (c.setNativeDiagnostics f ds).changes → g ∉ c.changes ∧
      (c.setNativeDiagnostics f ds).native.get g = c.native.get g) ∧
    (∃ x, (c.setNativeDiagnostics f ds).native.get f = some x ∧ x.map visible = ds.map visible) ∧
    (∀ g, g ≠ f → (c.setNativeDiagnostics f ds).native.get g = c.native.get g) := by
  have upd : ∀ c' : Collection, c' = { c with native := c.native.insert f ds, changes := insertSet c.changes f } →
      c'.check = c.check ∧ (∀ g, c'.native.get g ≠ none → c.native.get g ≠ none ∨ g = f) ∧
      (∀ g, g ∉ c'.changes → g ∉ c.changes ∧ c'.native.get g = c.native.get g) ∧
      (∃ x, c'.native.get f = some x ∧ x.map visible = ds.map visible) ∧
      (∀ g, g ≠ f → c'.native.get g = c.native.get g) := by
    rintro c' rfl
    refine ⟨rfl, fun g hg => ?_, fun g hg => ?_, ⟨ds, by simp [AMap.get_insert], rfl⟩, fun g hg => ?_⟩
    · simp only [AMap.get_insert] at hg
      by_cases hfg : f = g
      · exact Or.inr hfg.symm
      · rw [if_neg hfg] at hg; exact Or.inl hg
    · simp only [mem_insertSet, not_or] at hg
      exact ⟨hg.2, by simp only [AMap.get_insert]; rw [if_neg (Ne.symm hg.1)]⟩
    · simp only [AMap.get_insert]; rw [if_neg (Ne.symm hg)]
  unfold Collection.setNativeDiagnostics
  simp only
  split
  · rename_i existing hex
    split
    · rename_i hsame
      refine ⟨rfl, fun g hg => Or.inl hg, fun g hg => ⟨hg, rfl⟩, ⟨existing, hex, ?_⟩, fun g _ => rfl⟩
      exact ((same_iff _ _).1 hsame).symm
    · exact upd _ rfl
  · exact upd _ rfl

theorem onTasks_pub {ps c s} (h : Base ps c s) (hp : Pub s) : Pub s.onTasks := by
  unfold State.onTasks
  have gen : ∀ (ts : List Task) (s0 : State), Pub s0 → (∀ t ∈ ts, TaskOk s0 t) → Pub (ts.foldl State.onTask s0) := by
    intro ts
    induction ts with
    | nil => intro s0 h0 _; exact h0
    | cons t ts ih =>
      intro s0 h0 hok
      rw [List.foldl_cons]
      cases t with
      | response id reply => exact (hok (.response id reply) (by simp)).elim
      | diagnostics r =>
        have hr : ∀ x ∈ r, Known s0 x.1 := hok (.diagnostics r) (by simp)
        have inner : ∀ (r : List (Nat × List Diagnostic)) (col : Collection), (∀ x ∈ r, Known s0 x.1) →
            Pub { s0 with diagnostics := col } →
            Pub { s0 with diagnostics := r.foldl (fun c fd => c.setNativeDiagnostics fd.1 fd.2) col } := by
          intro r
          induction r with
          | nil => intro col _ h; exact h
          | cons x xs ihx =>
            intro col hx hcol
            rw [List.foldl_cons]
            apply ihx _ (fun y hy => hx y (by simp [hy]))
            obtain ⟨f1, f2, f3, _, _⟩ := setNative_facts col x.1 x.2
            refine ⟨by rw [← hcol.check]; exact f1, ?_, hcol.outKnown, ?_⟩
            · intro f hf
              rcases f2 f hf with hf | rfl
              · exact hcol.nativeKnown f hf
              · exact hx x (by simp)
            · intro f p hf hl hc
              obtain ⟨g1, g2⟩ := f3 f hc
              have := hcol.pub f p hf hl g1
              simp only at this ⊢
              rw [this]
              unfold Collection.diagnosticsFor
              rw [g2, f1]
        exact ih _ (inner r s0.diagnostics hr h0) (fun t ht => hok t (by simp [ht]))
  exact gen s.channel { s with channel := [] } ⟨hp.check, hp.nativeKnown, hp.outKnown, hp.pub⟩ h.channel

/-! ## Freshness -/

/-- The file of an open document. -/
def OpenFile (s : State) (f : Nat) : Prop := ∃ p ∈ s.memDocs.docs.keys, subscription s.vfs p = some f

/-- The results are those of the current texts and cover all open documents. -/
def Good (env : Env) (s : State) (r : List (Nat × List Diagnostic)) : Prop :=
  (∀ f, OpenFile s f → ∃ x ∈ r, x.1 = f) ∧
  ∀ x ∈ r, ∃ t, s.db.fileText.get x.1 = some t ∧ env.diagnostics t = some x.2

def FreshTask (env : Env) (s : State) : Task → Prop
  | .response _ _ => False
  | .diagnostics r => Good env s r

def FreshJob (env : Env) (s : State) : Job → Prop
  | .running subs snapshot => (∀ f, snapshot.fileText.get f = s.db.fileText.get f) ∧ ∀ f, f ∈ subs ↔ OpenFile s f
  | .finished t => FreshTask env s t

/-- The analysis panics on the text of an open document. -/
def Panics (env : Env) (s : State) : Prop :=
  ∃ f t, OpenFile s f ∧ s.db.fileText.get f = some t ∧ env.diagnostics t = none

def StoredFresh (env : Env) (s : State) : Prop :=
  ∀ f, OpenFile s f → ∃ t ds, s.db.fileText.get f = some t ∧ env.diagnostics t = some ds ∧
    (s.diagnostics.diagnosticsFor f).map visible = ds.map visible

/-- The youngest result on its way, or the stored ones, are those of the current texts. -/
def Fresh (env : Env) (s : State) : Prop :=
  Panics env s ∨
  match s.jobs.getLast? with
  | some j => FreshJob env s j
  | none => match s.channel.getLast? with
    | some t => FreshTask env s t
    | none => StoredFresh env s

theorem fresh_of_same (env : Env) {s s' : State} (ho : ∀ f, OpenFile s' f ↔ OpenFile s f)
    (ht : ∀ f, s'.db.fileText.get f = s.db.fileText.get f) :
    (∀ r, Good env s r → Good env s' r) ∧ (∀ t, FreshTask env s t → FreshTask env s' t) ∧
    (∀ j, FreshJob env s j → FreshJob env s' j) ∧ (Panics env s → Panics env s') := by
  have g : ∀ r, Good env s r → Good env s' r := by
    rintro r ⟨h1, h2⟩
    refine ⟨fun f hf => h1 f ((ho f).1 hf), fun x hx => ?_⟩
    obtain ⟨t, h3, h4⟩ := h2 x hx
    exact ⟨t, by rw [ht]; exact h3, h4⟩
  have k : ∀ t, FreshTask env s t → FreshTask env s' t := by
    intro t h; cases t with
    | response => exact h
    | diagnostics r => exact g r h
  refine ⟨g, k, ?_, ?_⟩
  · intro j h; cases j with
    | running subs snap => exact ⟨fun f => by rw [ht]; exact h.1 f, fun f => by rw [ho]; exact h.2 f⟩
    | finished t => exact k t h
  · rintro ⟨f, t, h1, h2, h3⟩; exact ⟨f, t, (ho f).2 h1, by rw [ht]; exact h2, h3⟩

theorem mapM_mem {α β : Type} (f : α → Option β) {l : List α} {r : List β} (h : l.mapM f = some r) (b : β) :
    b ∈ r ↔ ∃ a ∈ l, f a = some b := by
  induction l generalizing r with
  | nil => simp at h; subst h; simp
  | cons a l ih =>
    rw [List.mapM_cons] at h
    cases hf : f a with
    | none => simp [hf] at h
    | some x =>
      cases hl : l.mapM f with
      | none => simp [hf, hl] at h
      | some y =>
        simp [hf, hl] at h
        subst h
        simp [ih hl, hf, eq_comm]

theorem afterEvent_fresh {ps c s} (env : Env) (cuts : Nat → Nat) (h : Base ps c s) {s' : State}
    (ha : s.afterEvent env cuts = some s')
    (hidle : s.vfs.changes = [] → s.memDocs.addedOrRemoved = false → Fresh env s) : Fresh env s' := by
  obtain ⟨s1, b, subs, s2, hpc, ha', hinv, e1, e2, e3, e4, e5, e6, e7, e8, e9, e10, e11⟩ := afterEvent_ok env cuts h
  rw [ha] at ha'; simp at ha'; subst ha'
  obtain ⟨s1', b', hpc', _, _, _, _, _, _, _, _, hvfs, hb, hsame⟩ := processChanges_ok env cuts h
  rw [hpc] at hpc'; simp at hpc'; obtain ⟨rfl, rfl⟩ := hpc'
  by_cases hnew : (b || s.memDocs.addedOrRemoved) = true
  · right
    rw [if_pos hnew] at e9
    rw [e9, List.getLast?_append]
    simp only [List.getLast?_singleton, Option.some_or]
    refine ⟨fun f => by rw [e2], fun f => ?_⟩
    rw [mapM_mem _ e8]
    unfold OpenFile
    rw [e1, e6]
  · simp only [Bool.or_eq_true, not_or, Bool.not_eq_true] at hnew
    have hch : s.vfs.changes = [] := by
      refine Classical.byContradiction fun hne => ?_
      rw [hb.2 hne] at hnew; simp at hnew
    have hf := hidle hch hnew.2
    obtain ⟨j1, j2, j3⟩ := hsame hnew.1
    have hjobs : s'.jobs = s.jobs := by
      rw [e9, hnew.1, hnew.2]; simp [j1]
    have hid : s'.vfs.fileId = s.vfs.fileId := by
      rw [e1, hvfs]; rfl
    have ho : ∀ f, OpenFile s' f ↔ OpenFile s f := by
      intro f; unfold OpenFile subscription; rw [e6, hid]
    obtain ⟨g1, g2, g3, g4⟩ := fresh_of_same env ho (fun f => by rw [e2, j2])
    rcases hf with hf | hf
    · exact Or.inl (g4 hf)
    · right
      rw [hjobs, e4]
      split
      · rename_i j hj; rw [hj] at hf; exact g3 j hf
      · rename_i hj
        rw [hj] at hf
        simp only at hf
        split
        · rename_i t ht; rw [ht] at hf; exact g2 t hf
        · rename_i ht
          rw [ht] at hf
          intro f hof
          obtain ⟨t, ds, k1, k2, k3⟩ := hf f ((ho f).1 hof)
          exact ⟨t, ds, by rw [e2, j2]; exact k1, k2, by rw [e10]; exact k3⟩

theorem onMessage_fresh {ps c c' s m s'} (env : Env) (h : Inv ps c s) (hf : Fresh env s) (hs : Says c m c')
    (hm : s.onMessage m = some s') (hdiag : s'.diagnostics = s.diagnostics) (hchan : s'.channel = s.channel)
    (hjobs : s'.jobs = s.jobs) (hdb : s'.db = s.db) :
    s'.vfs.changes = [] → s'.memDocs.addedOrRemoved = false → Fresh env s' := by
  intro h1 h2
  obtain ⟨_, _, h3⟩ := onMessage_more h hs hm
  obtain ⟨hk, hid⟩ := h3 h2 h1
  have ho : ∀ f, OpenFile s' f ↔ OpenFile s f := by
    intro f; unfold OpenFile subscription; simp only [hk, hid]
  obtain ⟨g1, g2, g3, g4⟩ := fresh_of_same env ho (fun f => by rw [hdb])
  rcases hf with hf | hf
  · exact Or.inl (g4 hf)
  · right
    rw [hjobs, hchan]
    split
    · rename_i j hj; rw [hj] at hf; exact g3 j hf
    · rename_i hj
      rw [hj] at hf
      simp only at hf
      split
      · rename_i t ht; rw [ht] at hf; exact g2 t hf
      · rename_i ht
        rw [ht] at hf
        intro f hof
        obtain ⟨t, ds, k1, k2, k3⟩ := hf f ((ho f).1 hof)
        exact ⟨t, ds, by rw [hdb]; exact k1, k2, by rw [hdiag]; exact k3⟩

/-- After storing good results the stored diagnostics are fresh. -/
theorem stored_of_good (r : List (Nat × List Diagnostic)) (col : Collection) (hcheck : col.check = []) (f : Nat)
    (ds : List Diagnostic) (hall : ∀ x ∈ r, x.1 = f → x.2 = ds)
    (hstart : (∃ x ∈ r, x.1 = f) ∨ (col.diagnosticsFor f).map visible = ds.map visible) :
    ((r.foldl (fun c fd => c.setNativeDiagnostics fd.1 fd.2) col).diagnosticsFor f).map visible = ds.map visible := by
  induction r generalizing col with
  | nil =>
    rcases hstart with ⟨x, hx, _⟩ | h
    · simp at hx
    · exact h
  | cons x xs ih =>
    rw [List.foldl_cons]
    obtain ⟨f1, _, _, ⟨y, f4, f4'⟩, f5⟩ := setNative_facts col x.1 x.2
    apply ih _ (f1.trans hcheck) (fun z hz => hall z (by simp [hz]))
    by_cases hxf : x.1 = f
    · right
      unfold Collection.diagnosticsFor
      rw [← hxf, f4, f1, hcheck]
      simp only [AMap.get, Option.getD_some, Option.getD_none, List.append_nil, f4']
      rw [hall x (by simp) hxf]
    · rcases hstart with ⟨z, hz, hzf⟩ | h
      · rcases List.mem_cons.1 hz with rfl | hz
        · exact absurd hzf hxf
        · exact Or.inl ⟨z, hz, hzf⟩
      · right
        unfold Collection.diagnosticsFor at h ⊢
        rw [f5 f (Ne.symm hxf), f1]
        exact h

theorem onTasks_diagnostics {s : State} (h : ∀ t ∈ s.channel, ∃ r, t = .diagnostics r) :
    ∀ r, s.channel.getLast? = some (.diagnostics r) → ∃ col, (s.diagnostics.check = [] → col.check = []) ∧
      s.onTasks.diagnostics = r.foldl (fun c fd => c.setNativeDiagnostics fd.1 fd.2) col := by
  intro r hr
  obtain ⟨init, hi⟩ := List.getLast?_eq_some_iff.1 hr
  refine ⟨(init.foldl State.onTask { s with channel := [] }).diagnostics, ?_, ?_⟩
  · have hin : ∀ t ∈ init, ∃ r, t = .diagnostics r := fun t ht => h t (by rw [hi]; simp [ht])
    have gen : ∀ (ts : List Task) (s0 : State), (∀ t ∈ ts, ∃ r, t = .diagnostics r) → s0.diagnostics.check = [] →
        (ts.foldl State.onTask s0).diagnostics.check = [] := by
      intro ts
      induction ts with
      | nil => intro s0 _ h; exact h
      | cons t ts ih =>
        intro s0 ht h0
        obtain ⟨r, rfl⟩ := ht t (by simp)
        rw [List.foldl_cons]
        apply ih _ (fun t h => ht t (by simp [h]))
        show (r.foldl (fun c fd => c.setNativeDiagnostics fd.1 fd.2) s0.diagnostics).check = []
        have inner : ∀ (r : List (Nat × List Diagnostic)) (col : Collection), col.check = [] →
            (r.foldl (fun c fd => c.setNativeDiagnostics fd.1 fd.2) col).check = [] := by
          intro r
          induction r with
          | nil => intro col h; exact h
          | cons x xs ihx => intro col h; exact ihx _ ((setNative_facts col x.1 x.2).1.trans h)
        exact inner r _ h0
    exact gen init { s with channel := [] } hin
  · unfold State.onTasks
    rw [hi, List.foldl_append]
    rfl

theorem onTasks_fresh {ps c s} (env : Env) (h : Inv ps c s) (hp : Pub s) (hf : Fresh env s) (hne : s.channel ≠ []) :
    Fresh env s.onTasks := by
  obtain ⟨_, _, h3, h4, h5, h6, h7, _⟩ := onTasks_ok h.toBase
  have ho : ∀ f, OpenFile s.onTasks f ↔ OpenFile s f := by
    intro f; unfold OpenFile; rw [h3, h6]
  obtain ⟨g1, g2, g3, g4⟩ := fresh_of_same env ho (fun f => by rw [h4])
  rcases hf with hf | hf
  · exact Or.inl (g4 hf)
  · right
    rw [h5, h7]
    split
    · rename_i j hj; rw [hj] at hf; exact g3 j hf
    · rename_i hj
      rw [hj] at hf
      simp only at hf
      cases hl : s.channel.getLast? with
      | none => rw [List.getLast?_eq_none_iff] at hl; exact absurd hl hne
      | some t =>
        rw [hl] at hf
        simp only [List.getLast?_nil]
        cases t with
        | response => exact hf.elim
        | diagnostics r =>
          have hch : ∀ t ∈ s.channel, ∃ r, t = .diagnostics r := by
            intro t ht
            have := h.channel t ht
            cases t with
            | response => exact this.elim
            | diagnostics r => exact ⟨r, rfl⟩
          obtain ⟨col, hc, he⟩ := onTasks_diagnostics hch r hl
          intro f hof
          obtain ⟨x, hx, hxf⟩ := hf.1 f ((ho f).1 hof)
          obtain ⟨t, ht1, ht2⟩ := hf.2 x hx
          refine ⟨t, x.2, by rw [h4, ← hxf]; exact ht1, ht2, ?_⟩
          rw [he]
          apply stored_of_good r col (hc hp.check) f x.2
          · intro y hy hyf
            obtain ⟨t', ht1', ht2'⟩ := hf.2 y hy
            rw [hyf, ← hxf, ht1] at ht1'
            simp at ht1'
            subst ht1'
            rw [ht2] at ht2'
            simpa using ht2'.symm
          · exact Or.inl ⟨x, hx, hxf⟩

theorem finishJob_fresh {ps c s} (env : Env) (i : Nat) (h : Inv ps c s) (hf : Fresh env s) :
    Fresh env (s.finishJob env i) := by
  unfold State.finishJob
  split
  · rename_i subs snap hj
    have hlt := (List.getElem?_eq_some_iff.1 hj).1
    rcases hf with hf | hf
    · split
      · exact Or.inl hf
      · exact Or.inl hf
    · -- is it the last one?
      by_cases hlast : i = s.jobs.length - 1
      · have hl : s.jobs.getLast? = some (.running subs snap) := by
          rw [List.getLast?_eq_getElem?, ← hlast]; exact hj
        rw [hl] at hf
        simp only at hf
        obtain ⟨f1, f2⟩ := hf
        split
        · rename_i hc
          -- a panic, which must come from the text of an open document
          left
          unfold compute at hc
          split at hc
          · rename_i hm
            have : ∃ f ∈ subs, publishDiagnostics env s.lineEndings snap f = none := by
              refine Classical.byContradiction fun hno => ?_
              obtain ⟨r, hr, _⟩ := mapM_total' (publishDiagnostics env s.lineEndings snap) subs (by
                intro a ha
                cases hx : publishDiagnostics env s.lineEndings snap a with
                | none => exact absurd ⟨a, ha, hx⟩ hno
                | some b => exact ⟨b, rfl⟩)
              rw [hr] at hm; simp at hm
            obtain ⟨f, hfs, hpd⟩ := this
            have hof := (f2 f).1 hfs
            have hk : Known s f := h.jobs _ (List.mem_of_getElem? hj) f hfs
            rcases h.synced f hk with ⟨r, hr, _⟩ | ⟨k1, k2⟩
            · rw [h.drained] at hr; simp at hr
            · obtain ⟨t, ht⟩ := h.live f hk
              have hdb := k1 t ht
              obtain ⟨e, he⟩ := Option.isSome_iff_exists.1 k2
              unfold publishDiagnostics at hpd
              rw [he, f1, hdb] at hpd
              simp only at hpd
              cases hd : env.diagnostics (normalize t).1 with
              | none => exact ⟨f, _, hof, hdb, hd⟩
              | some ds => rw [hd] at hpd; simp at hpd
          · simp at hc
        · rename_i t hc
          right
          have hl' : (s.jobs.set i (.finished t)).getLast? = some (.finished t) := by
            rw [List.getLast?_eq_getElem?]
            simp only [List.length_set]
            rw [← hlast]
            simp [hlt]
          simp only [hl']
          unfold compute at hc
          split at hc
          · simp at hc
          · rename_i r hm
            simp at hc; subst hc
            show Good env _ r
            refine ⟨fun f hof => ?_, fun x hx => ?_⟩
            · have hfs := (f2 f).2 hof
              cases hx : publishDiagnostics env s.lineEndings snap f with
              | none =>
                exfalso
                have : ∀ (l : List Nat), f ∈ l → l.mapM (publishDiagnostics env s.lineEndings snap) = none := by
                  intro l
                  induction l with
                  | nil => simp
                  | cons a l ih =>
                    intro hfl
                    rw [List.mapM_cons]
                    rcases List.mem_cons.1 hfl with rfl | hfl
                    · simp [hx]
                    · cases publishDiagnostics env s.lineEndings snap a <;> simp [ih hfl]
                rw [this subs hfs] at hm; simp at hm
              | some x =>
                refine ⟨x, (mapM_mem _ hm x).2 ⟨f, hfs, hx⟩, ?_⟩
                unfold publishDiagnostics at hx
                split at hx
                · simp at hx
                · split at hx
                  · simp at hx
                  · split at hx
                    · simp at hx
                    · simp at hx; rw [← hx]
            · obtain ⟨f, hfs, hpd⟩ := (mapM_mem _ hm x).1 hx
              unfold publishDiagnostics at hpd
              split at hpd
              · simp at hpd
              · split at hpd
                · simp at hpd
                · rename_i t ht
                  split at hpd
                  · simp at hpd
                  · rename_i ds hds
                    simp at hpd
                    subst hpd
                    rw [f1] at ht
                    exact ⟨t, ht, hds⟩
      · have hlt' : i < s.jobs.length - 1 := by omega
        have hsome : ∃ j, s.jobs.getLast? = some j := by
          rw [List.getLast?_eq_getElem?]; exact ⟨_, List.getElem?_eq_getElem (by omega)⟩
        obtain ⟨j, hjl⟩ := hsome
        rw [hjl] at hf
        split
        · right
          have : (s.jobs.eraseIdx i).getLast? = some j := by
            rw [List.getLast?_eq_getElem?, List.length_eraseIdx, if_pos hlt, List.getElem?_eraseIdx]
            rw [if_neg (by omega)]
            rw [List.getLast?_eq_getElem?] at hjl
            rw [← hjl]; congr 1; omega
          simp only [this]
          exact hf
        · right
          have : ∀ x, (s.jobs.set i x).getLast? = some j := by
            intro x
            rw [List.getLast?_eq_getElem?, List.length_set, List.getElem?_set_ne (by omega)]
            rw [List.getLast?_eq_getElem?] at hjl
            exact hjl
          simp only [this]
          exact hf
  · exact hf

theorem deliverJob_fresh {s : State} (env : Env) (hf : Fresh env s) : Fresh env (s.deliverJob 0) := by
  unfold State.deliverJob
  split
  · rename_i t hj
    rcases hf with hf | hf
    · exact Or.inl hf
    · right
      cases hjobs : s.jobs with
      | nil => rw [hjobs] at hj; simp at hj
      | cons j js =>
        rw [hjobs] at hj hf
        simp at hj
        subst hj
        cases js with
        | nil =>
          simp only [List.getLast?_singleton] at hf
          simp only [List.eraseIdx_cons_zero, List.getLast?_nil, List.getLast?_append, List.getLast?_singleton,
            Option.some_or]
          exact hf
        | cons k ks =>
          have e : (Job.finished t :: k :: ks).getLast? = (k :: ks).getLast? := by simp [List.getLast?_cons_cons]
          rw [e] at hf
          simp only [List.eraseIdx_cons_zero]
          cases hl : (k :: ks).getLast? with
          | none => rw [List.getLast?_eq_none_iff] at hl; simp at hl
          | some j =>
            rw [hl] at hf
            exact hf
  · exact hf

/-! ## Along histories -/

theorem runFrom_pub {ps c c' steps} (env : Env) (hps : ps.length ≤ maxId) (hist : History c steps c')
    (hopen : ∀ p ∈ opened steps, p ∈ ps) (s : State) (h : Inv ps c s) (hp : Pub s) :
    ∃ s', runFrom env s steps = .running s' ∧ Inv ps c' s' ∧ Pub s' ∧
      (InOrder steps → Fresh env s → Fresh env s') ∧ s'.sourceRootConfig = s.sourceRootConfig := by
  induction hist generalizing s with
  | nil c => exact ⟨s, rfl, h, hp, fun _ hf => hf, rfl⟩
  | @message c m c1 steps c2 cuts hsays hrest ih =>
    have ho : ∀ p v t, m = .didOpen (some p) v t → p ∈ ps := by
      rintro p v t rfl; exact hopen p (by simp [opened])
    have ho' : ∀ p ∈ opened steps, p ∈ ps := by
      intro p hp
      apply hopen
      unfold opened
      split
      · rename_i heq; simp at heq
      · rename_i heq; simp at heq; rw [← heq.2]; simp [hp]
      · rename_i heq; simp at heq; rw [← heq.2]; exact hp
    obtain ⟨s1, h1, hb, d1, d2, d3, d4, d5, d6⟩ := onMessage_ok h.toBase hps hsays ho
    obtain ⟨_, _, _, s2, _, h2, hinv, _, _, _, _, _, _, hcfg, _⟩ := afterEvent_ok env cuts hb
    obtain ⟨s3, h3, h4, h5, h6, h7⟩ := ih ho' s2 hinv
      (afterEvent_pub env cuts hb (onMessage_pub h hp hsays h1 hb d1 d6) h2)
    refine ⟨s3, ?_, h4, h5, fun hio hf => h6 (fun i hi => hio i (by simp [hi])) ?_, by rw [h7, hcfg, d6]⟩
    · have hne : m ≠ .exit := by rintro rfl; cases hsays
      rw [runFrom]
      have : step env s (.message m cuts) = .running s2 := by
        cases m <;> first | exact absurd rfl hne | simp only [step, h1, Option.bind_some, h2]
      rw [this]
      exact h3
    · exact afterEvent_fresh env cuts hb h2 (onMessage_fresh env h hf hsays h1 d1 d2 d3 d4)
  | @tasks c steps c2 cuts hrest ih =>
    have ho' : ∀ p ∈ opened steps, p ∈ ps := fun p hp => hopen p (by simpa [opened] using hp)
    rw [runFrom]
    simp only [step]
    by_cases he : s.channel.isEmpty = true
    · simp only [he, if_true]
      obtain ⟨s3, h3, h4, h5, h6, h7⟩ := ih ho' s h hp
      exact ⟨s3, h3, h4, h5, fun hio hf => h6 (fun i hi => hio i (by simp [hi])) hf, h7⟩
    · simp only [he, Bool.false_eq_true, if_false]
      obtain ⟨hb, _, hv, _, _, hmd, _, _, hcfg', _⟩ := onTasks_ok h.toBase
      obtain ⟨_, _, _, s2, _, h2, hinv, _, _, _, _, _, _, hcfg, _⟩ := afterEvent_ok env cuts hb
      rw [h2]
      obtain ⟨s3, h3, h4, h5, h6, h7⟩ := ih ho' s2 hinv (afterEvent_pub env cuts hb (onTasks_pub h.toBase hp) h2)
      refine ⟨s3, h3, h4, h5, fun hio hf => h6 (fun i hi => hio i (by simp [hi])) ?_, by rw [h7, hcfg, hcfg']⟩
      exact afterEvent_fresh env cuts hb h2 (fun _ _ => onTasks_fresh env h hp hf (by
        intro hnil; rw [hnil] at he; simp at he))
  | finish i hrest ih =>
    rw [runFrom]
    simp only [step]
    have hkeep : (s.finishJob env i).diagnostics = s.diagnostics ∧ (s.finishJob env i).vfs = s.vfs ∧
        (s.finishJob env i).out = s.out ∧ (s.finishJob env i).sourceRootConfig = s.sourceRootConfig := by
      unfold State.finishJob
      split
      · split <;> exact ⟨rfl, rfl, rfl, rfl⟩
      · exact ⟨rfl, rfl, rfl, rfl⟩
    obtain ⟨k1, k2, k3, k4⟩ := hkeep
    have hp' : Pub (s.finishJob env i) := by
      obtain ⟨p1, p2, p3, p4⟩ := hp
      exact ⟨by rw [k1]; exact p1, by unfold Known at *; rw [k1, k2]; exact p2, by rw [k2, k3]; exact p3,
        by rw [k1, k2, k3, k4]; exact p4⟩
    obtain ⟨s3, h3, h4, h5, h6, h7⟩ := ih (fun p hp => hopen p (by simpa [opened] using hp)) _ (finishJob_ok env i h) hp'
    exact ⟨s3, h3, h4, h5, fun hio hf => h6 (fun i hi => hio i (by simp [hi])) (finishJob_fresh env i h hf), by rw [h7, k4]⟩
  | deliver i hrest ih =>
    rw [runFrom]
    simp only [step]
    have hkeep : (s.deliverJob i).diagnostics = s.diagnostics ∧ (s.deliverJob i).vfs = s.vfs ∧
        (s.deliverJob i).out = s.out ∧ (s.deliverJob i).sourceRootConfig = s.sourceRootConfig := by
      unfold State.deliverJob
      split <;> exact ⟨rfl, rfl, rfl, rfl⟩
    obtain ⟨k1, k2, k3, k4⟩ := hkeep
    have hp' : Pub (s.deliverJob i) := by
      obtain ⟨p1, p2, p3, p4⟩ := hp
      exact ⟨by rw [k1]; exact p1, by unfold Known at *; rw [k1, k2]; exact p2, by rw [k2, k3]; exact p3,
        by rw [k1, k2, k3, k4]; exact p4⟩
    obtain ⟨s3, h3, h4, h5, h6, h7⟩ := ih (fun p hp => hopen p (by simpa [opened] using hp)) _ (deliverJob_ok i h) hp'
    refine ⟨s3, h3, h4, h5, fun hio hf => h6 (fun i hi => hio i (by simp [hi])) ?_, by rw [h7, k4]⟩
    have : i = 0 := hio i (by simp)
    subst this
    exact deliverJob_fresh env hf

theorem pub_init (cfg : SourceRootConfig) (dyn : Bool) : Pub (State.init cfg dyn) where
  check := rfl
  nativeKnown := by simp [State.init, Collection.empty, AMap.get]
  outKnown := by cases dyn <;> simp [State.init]
  pub := by simp [State.init, Vfs.empty, Vfs.filePath]

theorem fresh_init (env : Env) (cfg : SourceRootConfig) (dyn : Bool) : Fresh env (State.init cfg dyn) := by
  right
  simp only [State.init, List.getLast?_nil]
  rintro f ⟨p, hp, _⟩
  simp [AMap.keys] at hp

/-! ## C28 -/

/-- **C28**, for schedules in which the workers send their results in the order they were started.
When all work is finished and received and the analysis does not panic on the text of an open
document, the stored diagnostics of every open document are those of its current text.  (What is
missing: other schedules, for which it is false, see `stale_diagnostics_survive`.) -/
theorem stored_diagnostics_converge_partial (env : Env) (cfg : SourceRootConfig) (dyn : Bool) (hcfg : Configured cfg)
    (steps : List Step) (c : Client) (hist : History (Client.init dyn) steps c) (hfew : FewPaths steps)
    (horder : InOrder steps) (s : State) (hrun : run env cfg dyn steps = .running s)
    (hjobs : s.jobs = []) (hchan : s.channel = [])
    (hok : ∀ p d u, c.docs p = some d → CrlfToLf d.text u → (env.diagnostics u).isSome)
    (p : Bytes) (d : Doc) (hd : c.docs p = some d) :
    ∃ f u ds, s.vfs.fileId (.pathBuf p) = some (some f) ∧ CrlfToLf d.text u ∧ env.diagnostics u = some ds ∧
      (s.diagnostics.diagnosticsFor f).map visible = ds.map visible := by
  obtain ⟨ps, h1, h2⟩ := hfew
  obtain ⟨s', h3, hinv, _, hf, _⟩ := runFrom_pub env h1 hist h2 _ (init_ok ps cfg dyn hcfg) (pub_init cfg dyn)
  unfold run at hrun
  rw [hrun] at h3; simp at h3; subst h3
  have hf := hf horder (fresh_init env cfg dyn)
  have key : ∀ p d, c.docs p = some d → ∃ f, s.vfs.fileId (.pathBuf p) = some (some f) ∧ OpenFile s f ∧
      s.db.fileText.get f = some (normalize d.text).1 := by
    intro p d hd
    obtain ⟨f, q1, q2, hk, _⟩ := fileId_of_at hinv.toBase (hinv.text p d hd)
    refine ⟨f, q1, ⟨.pathBuf p, ?_, by unfold subscription; rw [q1]⟩, ?_⟩
    · rw [AMap.mem_keys, hinv.docs, hd]; rfl
    · rcases hinv.synced f hk with ⟨r, hr, _⟩ | h
      · rw [hinv.drained] at hr; simp at hr
      · exact h.1 _ q2
  obtain ⟨f, q1, q2, q3⟩ := key p d hd
  rcases hf with ⟨g, t, ⟨q, hq, hsub⟩, ht, hnone⟩ | hf
  · obtain ⟨b, d', rfl, hd'⟩ := doc_of_key hinv.toBase hq
    obtain ⟨f', r1, r2, r3⟩ := key b d' hd'
    unfold subscription at hsub
    rw [r1] at hsub
    simp at hsub
    subst hsub
    rw [r3] at ht
    simp at ht
    have := hok b d' _ hd' (crlfToLf_strip _ d'.text (Nat.le_refl _))
    have e : strip d'.text = (normalize d'.text).1 := rfl
    rw [e, ht, hnone] at this
    simp at this
  · rw [hjobs, hchan] at hf
    simp only [List.getLast?_nil] at hf
    obtain ⟨t, ds, e1, e2, e3⟩ := hf f q2
    rw [q3] at e1
    simp at e1
    subst e1
    exact ⟨f, _, ds, q1, crlfToLf_strip _ d.text (Nat.le_refl _), e2, e3⟩

example : History (Client.init false) quietSteps ((Client.init false).set pathA (some ⟨1, ['x']⟩)) ∧
    InOrder quietSteps ∧ FewPaths quietSteps :=
  ⟨.message _ (.openFile _ _ _ _) (.finish _ (.deliver _ (.tasks _ (.nil _)))), by
    intro i h; simpa [quietSteps] using h, ⟨[pathA], by decide, by decide⟩⟩

/-- The schedule of the counterexample: the first job is done but has not sent its result when the
document changes; the second job is faster to send. -/
def staleSteps : List Step :=
  [.message (.didOpen (some pathA) 1 ['x']) (fun _ => 0), .finish 0,
   .message (.didChange (some pathA) 2 [⟨none, ['y']⟩]) (fun _ => 0), .finish 1,
   .deliver 1, .tasks (fun _ => 0), .deliver 0, .tasks (fun _ => 0)]

/-- **C28 is violated.**  There is a conforming history and a schedule after which all work is
finished and received, and the stored diagnostics of the only open document are those of an older
text. -/
theorem stale_diagnostics_survive :
    ∃ (env : Env) (steps : List Step) (c : Client) (s : State) (p : Bytes) (d : Doc) (f : Nat) (ds : List Diagnostic),
      History (Client.init false) steps c ∧ run env SourceRootConfig.default false steps = .running s ∧
      s.jobs = [] ∧ s.channel = [] ∧ c.docs p = some d ∧ s.vfs.fileId (.pathBuf p) = some (some f) ∧
      CrlfToLf d.text d.text ∧ env.diagnostics d.text = some ds ∧
      (s.diagnostics.diagnosticsFor f).map visible ≠ ds.map visible := by
  refine ⟨sampleEnv, staleSteps,
    ((Client.init false).set pathA (some ⟨1, ['x']⟩)).set pathA (some ⟨2, ['y']⟩), _, pathA, ⟨2, ['y']⟩, 0, _,
    ?_, rfl, rfl, rfl, rfl, rfl, ?_, rfl, by decide⟩
  · refine .message _ (.openFile _ _ _ _) (.finish _ (.message _ ?_ (.finish _ (.deliver _ (.tasks _ (.deliver _
      (.tasks _ (.nil _))))))))
    exact .changeFile _ pathA 2 ⟨1, ['x']⟩ [.full ['y']] _ rfl (.cons (.full _ _) (.nil _))
  · exact crlfToLf_strip _ ['y'] (Nat.le_refl _)

/-! ## C26, what would hold with local roots -/

/-- **C26**, for servers configured so that the document's path belongs to a local root, which the
code never does (`nothing_is_published`): what the client was last sent for a file is what is
stored for it, under every schedule. -/
theorem published_is_stored_partial (env : Env) (cfg : SourceRootConfig) (dyn : Bool) (hcfg : Configured cfg)
    (steps : List Step) (c : Client) (hist : History (Client.init dyn) steps c) (hfew : FewPaths steps)
    (s : State) (hrun : run env cfg dyn steps = .running s)
    (f : Nat) (p : VfsPath) (hp : s.vfs.fileId p = some (some f)) (hl : LocalPath cfg p) :
    (lastPublished p s.out).getD [] = s.diagnostics.diagnosticsFor f := by
  obtain ⟨ps, h1, h2⟩ := hfew
  obtain ⟨s', h3, hinv, hpub, _, hc⟩ := runFrom_pub env h1 hist h2 _ (init_ok ps cfg dyn hcfg) (pub_init cfg dyn)
  unfold run at hrun
  rw [hrun] at h3; simp at h3; subst h3
  refine hpub.pub f p (indexOf_some (fileId_some hinv.ok hp).1) ?_ (by rw [hinv.published]; simp)
  rw [hc]; exact hl

/-- **C26**, for local roots and in-order delivery: when all work is finished and received and the
analysis does not panic, the last publication for an open document has the diagnostics of its
current text (no publication counts as an empty one). -/
theorem local_errors_are_published_partial (env : Env) (cfg : SourceRootConfig) (dyn : Bool) (hcfg : Configured cfg)
    (steps : List Step) (c : Client) (hist : History (Client.init dyn) steps c) (hfew : FewPaths steps)
    (horder : InOrder steps) (s : State) (hrun : run env cfg dyn steps = .running s)
    (hjobs : s.jobs = []) (hchan : s.channel = [])
    (hok : ∀ p d u, c.docs p = some d → CrlfToLf d.text u → (env.diagnostics u).isSome)
    (p : Bytes) (d : Doc) (hd : c.docs p = some d) (hl : LocalPath cfg (.pathBuf p)) :
    ∃ u ds, CrlfToLf d.text u ∧ env.diagnostics u = some ds ∧
      ((lastPublished (.pathBuf p) s.out).getD []).map visible = ds.map visible := by
  obtain ⟨f, u, ds, h1, h2, h3, h4⟩ := stored_diagnostics_converge_partial env cfg dyn hcfg steps c hist hfew horder s hrun
    hjobs hchan hok p d hd
  refine ⟨u, ds, h2, h3, ?_⟩
  rw [published_is_stored_partial env cfg dyn hcfg steps c hist hfew s hrun f _ h1 hl, h4]

/-- A configuration in which the only file set is local: the errors of the quiet history are sent. -/
example : let cfg : SourceRootConfig := ⟨⟨1, []⟩, [0]⟩
    Configured cfg ∧ LocalPath cfg (.pathBuf pathA) ∧
    ∃ s, run sampleEnv cfg false quietSteps = .running s ∧ s.jobs = [] ∧ s.channel = [] ∧
      (lastPublished (.pathBuf pathA) s.out).map List.length = some 1 :=
  ⟨default_configured, rfl, _, rfl, rfl, rfl, rfl⟩

end Verif.Server
