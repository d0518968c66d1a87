import Verif.Server.Turn
import Verif.LineEndings.Props

/-!
Document synchronisation (C08), absence of panics (C09) and versions (C10).
-/

set_option autoImplicit false

namespace Verif.Server

open Verif.FileSet Verif.Vfs Verif.Db Verif.Diagnostics Verif.LineEndings Verif.Server.Spec

/-- The store has room for the paths opened in the history: file ids are 32-bit numbers. -/
def FewPaths (steps : List Step) : Prop :=
  ∃ ps : List Bytes, ps.length ≤ maxId ∧ ∀ p ∈ opened steps, p ∈ ps

/-- A configuration the server can be started with: one built from some list of roots. -/
def Configured (cfg : SourceRootConfig) : Prop := ∃ roots, build roots = some cfg.fsc

theorem default_configured : Configured SourceRootConfig.default := ⟨[], by simp [build, collect, dedup, fstFromIter, SourceRootConfig.default]⟩

theorem run_ok {steps c} (env : Env) (cfg : SourceRootConfig) (dyn : Bool) (hcfg : Configured cfg)
    (hist : History (Client.init dyn) steps c) (hfew : FewPaths steps) :
    ∃ ps s, run env cfg dyn steps = .running s ∧ Inv ps c s := by
  obtain ⟨ps, h1, h2⟩ := hfew
  obtain ⟨s, h3, h4⟩ := runFrom_ok env h1 hist h2 _ (init_ok ps cfg dyn hcfg)
  exact ⟨ps, s, h3, h4⟩

/-- **C09.**  Along every history of a conforming client, with every schedule of the thread pool,
every analysis (even one that panics in the workers) and every configuration of roots, the event
loop keeps running. -/
theorem conforming_traffic_does_not_crash (env : Env) (cfg : SourceRootConfig) (dyn : Bool) (hcfg : Configured cfg)
    (steps : List Step) (c : Client) (hist : History (Client.init dyn) steps c) (hfew : FewPaths steps) :
    ∃ s, run env cfg dyn steps = .running s := by
  obtain ⟨_, s, h, _⟩ := run_ok env cfg dyn hcfg hist hfew
  exact ⟨s, h⟩

/-- **C09**, the invariants behind it: every open document is a live file of the store; every file
of the store has a source root that exists, and a recorded line-ending style. -/
theorem known_files_are_complete (env : Env) (cfg : SourceRootConfig) (dyn : Bool) (hcfg : Configured cfg)
    (steps : List Step) (c : Client) (hist : History (Client.init dyn) steps c) (hfew : FewPaths steps)
    (s : State) (hrun : run env cfg dyn steps = .running s) :
    (∀ p d, c.docs p = some d → ∃ f, s.vfs.fileId (.pathBuf p) = some (some f)) ∧
    (∀ p f, s.vfs.fileId p = some (some f) →
      (∃ k root, s.db.fileSourceRoot.get f = some k ∧ s.db.sourceRoot.get k = some root) ∧
      (s.lineEndings.get f).isSome) := by
  obtain ⟨ps, s', h, hinv⟩ := run_ok env cfg dyn hcfg hist hfew
  rw [hrun] at h; cases h
  refine ⟨fun p d hd => ?_, fun p f hf => ?_⟩
  · obtain ⟨id, h, _⟩ := fileId_of_at hinv.toBase (hinv.text p d hd); exact ⟨id, h⟩
  · have hk : Known s f := by
      obtain ⟨hi, _⟩ := fileId_some hinv.ok hf
      have := (List.getElem?_eq_some_iff.1 (indexOf_some hi)).1
      unfold Known; rw [hinv.ok.len]; exact this
    refine ⟨?_, ?_⟩
    · rcases hinv.rooted f hk with ⟨r, hr, _⟩ | hroot
      · rw [hinv.drained] at hr; simp at hr
      · obtain ⟨p, root, _, e1, e2, _⟩ := hroot
        exact ⟨_, root, e1, e2⟩
    · rcases hinv.synced f hk with ⟨r, hr, _⟩ | h
      · rw [hinv.drained] at hr; simp at hr
      · exact h.2

/-- **C08.**  After every history of a conforming client, the text the analysis holds for an open
document is the client's text with every CRLF turned into LF. -/
theorem analysis_text_is_client_text (env : Env) (cfg : SourceRootConfig) (dyn : Bool) (hcfg : Configured cfg)
    (steps : List Step) (c : Client) (hist : History (Client.init dyn) steps c) (hfew : FewPaths steps)
    (s : State) (hrun : run env cfg dyn steps = .running s) (p : Bytes) (d : Doc) (hd : c.docs p = some d) :
    ∃ f u, s.vfs.fileId (.pathBuf p) = some (some f) ∧ CrlfToLf d.text u ∧ s.db.fileText.get f = some u := by
  obtain ⟨ps, s', h, hinv⟩ := run_ok env cfg dyn hcfg hist hfew
  rw [hrun] at h; cases h
  obtain ⟨id, h1, h2, hk, _⟩ := fileId_of_at hinv.toBase (hinv.text p d hd)
  refine ⟨id, (normalize d.text).1, h1, crlfToLf_strip _ d.text (Nat.le_refl _), ?_⟩
  rcases hinv.synced id hk with ⟨r, hr, _⟩ | h
  · rw [hinv.drained] at hr; simp at hr
  · exact h.1 _ h2

/-- **C10.**  After every history of a conforming client, a path has a recorded version exactly when
the client has the document open, and it is the client's version. -/
theorem versions_are_current (env : Env) (cfg : SourceRootConfig) (dyn : Bool) (hcfg : Configured cfg)
    (steps : List Step) (c : Client) (hist : History (Client.init dyn) steps c) (hfew : FewPaths steps)
    (s : State) (hrun : run env cfg dyn steps = .running s) :
    (∀ p, s.memDocs.docs.get (.pathBuf p) = (c.docs p).map Doc.version) ∧
    (∀ b, s.memDocs.docs.get (.virtualPath b) = none) := by
  obtain ⟨ps, s', h, hinv⟩ := run_ok env cfg dyn hcfg hist hfew
  rw [hrun] at h; cases h
  refine ⟨hinv.docs, fun b => ?_⟩
  rw [AMap.get_eq_none]
  intro hb
  have := hinv.docsReal _ hb
  simp [isReal] at this

/-! ### Witness -/

/-- The path `/a`. -/
def pathA : Bytes := [47, 97]

/-- The path `/b`. -/
def pathB : Bytes := [47, 98]

/-- An analysis that reports the whole text as one message, and panics on the text `!`. -/
def sampleEnv : Env :=
  ⟨fun t => if t = ['!'] then none else some [⟨⟨⟨0, 0⟩, ⟨0, 0⟩⟩, some 1, none, t, []⟩]⟩

/-- Two documents are opened, one with CRLF; one is edited and one closed; requests and pool steps
come in between. -/
def sampleSteps : List Step :=
  [.message (.didOpen (some pathA) 1 ['x', '\r', '\n', 'y']) (fun _ => 0),
   .finish 0,
   .message (.otherRequest (.num 7)) (fun _ => 0),
   .message (.didOpen (some pathB) 4 ['!']) (fun _ => 1),
   .deliver 0,
   .tasks (fun _ => 0),
   .message (.didChange (some pathA) 2 [⟨some ⟨⟨1, 0⟩, ⟨1, 1⟩⟩, ['z']⟩]) (fun _ => 0),
   .message (.didClose (some pathB)) (fun _ => 0),
   .message (.response 0) (fun _ => 0)]

def sampleClient : Client :=
  let c := ((Client.init true).set pathA (some ⟨1, ['x', '\r', '\n', 'y']⟩)).set pathB (some ⟨4, ['!']⟩)
  { (c.set pathA (some ⟨2, ['x', '\r', '\n', 'z']⟩)).set pathB none with unanswered := [] }

theorem sample_history : History (Client.init true) sampleSteps sampleClient := by
  refine .message _ (.openFile _ _ _ _) (.finish _ (.message _ (.otherRequest _ _) (.message _ (.openFile _ _ _ _)
    (.deliver _ (.tasks _ (.message _ ?_ (.message _ (.closeFile _ _) (.message _ (.response _ _ ?_) (.nil _)))))))))
  rotate_left
  · simp [Client.set, Client.init]
  · refine .changeFile _ pathA 2 ⟨1, ['x', '\r', '\n', 'y']⟩ [.ranged (1, 0) (1, 1) ['z']] _ rfl ?_
    exact .cons (Edits.Spec.EditsTo.ranged ['x', '\r', '\n'] ['y'] [] ['z']) (.nil _)

theorem sample_few : FewPaths sampleSteps := ⟨[pathA, pathB], by decide, by decide⟩

/-- The theorems above apply to the sample: document `/a` has version 2 and its text is normalised. -/
example : ∃ s f, run sampleEnv SourceRootConfig.default true sampleSteps = .running s ∧
    sampleClient.docs pathA = some ⟨2, ['x', '\r', '\n', 'z']⟩ ∧ s.vfs.fileId (.pathBuf pathA) = some (some f) ∧
    s.db.fileText.get f = some ['x', '\n', 'z'] ∧ s.memDocs.docs.get (.pathBuf pathA) = some 2 ∧
    s.memDocs.docs.get (.pathBuf pathB) = none := by
  obtain ⟨s, hs⟩ := conforming_traffic_does_not_crash sampleEnv SourceRootConfig.default true default_configured
    sampleSteps sampleClient sample_history sample_few
  obtain ⟨f, u, h1, h2, h3⟩ := analysis_text_is_client_text sampleEnv SourceRootConfig.default true default_configured
    sampleSteps sampleClient sample_history sample_few s hs pathA _ rfl
  have hu : u = ['x', '\n', 'z'] :=
    crlfToLf_functional h2 (crlfToLf_strip _ ['x', '\r', '\n', 'z'] (Nat.le_refl _))
  obtain ⟨h4, _⟩ := versions_are_current sampleEnv SourceRootConfig.default true default_configured
    sampleSteps sampleClient sample_history sample_few s hs
  exact ⟨s, f, hs, rfl, h1, by rw [h3, hu], h4 pathA, h4 pathB⟩

/-- A malformed notification, a change outside the text of an open document, or a response to no
request of the server panics: the client must conform. -/
example :
    run sampleEnv SourceRootConfig.default false [.message .malformed (fun _ => 0)] = .panicked ∧
    run sampleEnv SourceRootConfig.default false [.message (.response 5) (fun _ => 0)] = .panicked ∧
    run sampleEnv SourceRootConfig.default false [.message (.didOpen (some pathA) 1 ['x']) (fun _ => 0),
      .message (.didChange (some pathA) 2 [⟨some ⟨⟨7, 0⟩, ⟨7, 0⟩⟩, ['z']⟩]) (fun _ => 0)] = .panicked :=
  ⟨rfl, rfl, rfl⟩

end Verif.Server
