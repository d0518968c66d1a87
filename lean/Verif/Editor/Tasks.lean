import Verif.Editor.Ws

set_option autoImplicit false

/-!
C113: the tasks the extension offers.

Model of `/repo/editors/code/src/components/tasks.ts` on top of the workspaces (`Verif/Editor/WsModel.lean`), and of
the definition of the tasks in `/repo/editors/code/package.json`.
-/

namespace Verif.Editor.Tasks

open Verif.Editor.Spec

abbrev Text := List Char

/-! ### Model -/

/-- A task definition as in a `tasks.json`, package.json `taskDefinitions`: `args` can be missing. -/
structure Definition where
  type : Text
  subcommand : Text
  args : Option (List Text)
  deriving DecidableEq, Repr

inductive Group where
  | build | test
  deriving DecidableEq, Repr

/-- `vscode.Task` with its `vscode.ShellExecution`. -/
structure EditorTask where
  definition : Definition
  scope : Folder
  name : Text
  source : Text
  command : Text
  args : List Text
  cwd : Text
  group : Group
  deriving DecidableEq, Repr

/-- `TASK_TYPE` and `TASK_SOURCE`, tasks.ts:4-5. -/
def taskType : Text := "dove".toList
def taskSource : Text := "dove".toList

/-- `DoveTaskProvider`, tasks.ts:15-19. -/
structure Provider where
  target : Folder
  executable : Text

/-- `defs`, tasks.ts:22-25. -/
def defs : List (Text × Group) := [("build".toList, .build), ("test".toList, .test)]

/-- `provideTasks`, tasks.ts:21-43.  `fsPath` is the path of a folder. -/
def provideTasks (fsPath : Folder → Text) (p : Provider) : List EditorTask :=
  defs.map fun defn =>
    { definition := ⟨taskType, defn.1, none⟩
      scope := p.target
      name := "dove ".toList ++ defn.1
      source := taskSource
      command := p.executable
      args := [defn.1]
      cwd := fsPath p.target
      group := defn.2 }

/-- `resolveTask`, tasks.ts:45-47. -/
def resolveTask (_ : Provider) (_ : Definition) : Option EditorTask := none

/-- The provider registered after the start of a client, ws.ts:111-114, with the executable its factory had then (there is one
client per factory and folder, C46).  It is
disposed when the client has been stopped, ws.ts:117-125; the time between is left out. -/
def providers (exe : Client → Text) (s : Ext) : List Provider :=
  (s.clients.filter (·.running)).map fun c => ⟨c.folder, exe c⟩

/-- The tasks the editor shows: it asks every provider. -/
def offered (fsPath : Folder → Text) (exe : Client → Text) (s : Ext) : List EditorTask :=
  (providers exe s).flatMap (provideTasks fsPath)

/-! ### Specification -/

/-- Running this task is running this command of dove in this folder. -/
def Runs (fsPath : Folder → Text) (dove : Text) (t : EditorTask) (folder : Folder) (command : List Text) : Prop :=
  t.scope = folder ∧ t.command = dove ∧ t.args = command ∧ t.cwd = fsPath folder

/-- The command line a definition describes. -/
def Definition.commandLine (d : Definition) : List Text := d.subcommand :: d.args.getD []

/-- What an editor can run for a task the user has written down: what a provider makes of its definition, or, if
none makes anything of it, an offered task with this very definition. -/
def CanRun (fsPath : Folder → Text) (exe : Client → Text) (s : Ext) (d : Definition) (t : EditorTask) : Prop :=
  (∃ p ∈ providers exe s, resolveTask p d = some t) ∨
  ((∀ p ∈ providers exe s, resolveTask p d = none) ∧ t ∈ offered fsPath exe s ∧ t.definition = d)

/-! ### Theorems -/

theorem mem_offered (fsPath : Folder → Text) (exe : Client → Text) (s : Ext) (t : EditorTask) :
    t ∈ offered fsPath exe s ↔ ∃ c ∈ s.clients, c.running = true ∧
      t ∈ provideTasks fsPath ⟨c.folder, exe c⟩ := by
  simp only [offered, providers, List.mem_flatMap, List.mem_map, List.mem_filter]
  constructor
  · rintro ⟨p, ⟨c, ⟨h1, h2⟩, rfl⟩, h3⟩; exact ⟨c, h1, h2, h3⟩
  · rintro ⟨c, h1, h2, h3⟩; exact ⟨_, ⟨c, ⟨h1, h2⟩, rfl⟩, h3⟩

/-- **C113.**  Every offered task runs the command it is named and grouped after, in the folder it is shown for,
which has a client, with the executable its client was started with. -/
theorem offered_task_does_what_it_says (fsPath : Folder → Text) (exe : Client → Text) (s : Ext) (t : EditorTask)
    (h : t ∈ offered fsPath exe s) :
    ∃ c ∈ s.clients, c.running = true ∧ ∃ sub, Runs fsPath (exe c) t c.folder [sub] ∧
      t.name = "dove ".toList ++ sub ∧ t.definition = ⟨"dove".toList, sub, none⟩ ∧
      (sub = "build".toList ∧ t.group = .build ∨ sub = "test".toList ∧ t.group = .test) := by
  obtain ⟨c, h1, h2, h3⟩ := (mem_offered fsPath exe s t).1 h
  refine ⟨c, h1, h2, ?_⟩
  simp only [provideTasks, defs, List.map_cons, List.map_nil, List.mem_cons, List.not_mem_nil, or_false] at h3
  rcases h3 with rfl | rfl
  · exact ⟨"build".toList, ⟨rfl, rfl, rfl, rfl⟩, rfl, rfl, .inl ⟨rfl, rfl⟩⟩
  · exact ⟨"test".toList, ⟨rfl, rfl, rfl, rfl⟩, rfl, rfl, .inr ⟨rfl, rfl⟩⟩

theorem offered_in (fsPath : Folder → Text) (exe : Client → Text) (cs : List Client) (folder : Folder) :
    (((cs.filter (·.running)).map fun c => (⟨c.folder, exe c⟩ : Provider)).flatMap (provideTasks fsPath)).filter
      (fun t => t.scope = folder) =
    (cs.filter fun c => c.running && c.folder = folder).flatMap fun c => provideTasks fsPath ⟨c.folder, exe c⟩ := by
  induction cs with
  | nil => rfl
  | cons c cs ih =>
    simp only [List.filter_cons]
    cases hr : c.running with
    | false => simpa using ih
    | true =>
      simp only [if_true, List.map_cons, List.flatMap_cons, List.filter_append, Bool.true_and, decide_eq_true_eq]
      rw [ih]
      by_cases hf : c.folder = folder
      · simp [hf, provideTasks, defs]
      · simp [hf, provideTasks, defs]

/-- **C113.**  Each folder has its two tasks once, if it has a running client, and otherwise none: for all
interleavings of events, calls and reloads in which no reload overtakes a call (C62). -/
theorem tasks_of_folder_partial (fsPath : Folder → Text) (exe : Client → Text) (acts : List Action)
    (hr : CalmReloads Ext.new acts) (folder : Folder) :
    let tasks := (offered fsPath exe (Ext.new.run acts)).filter fun t => t.scope = folder
    (runningOf (Ext.new.run acts) folder = [] → tasks = []) ∧
    (runningOf (Ext.new.run acts) folder ≠ [] → tasks.map (·.args) = [["build".toList], ["test".toList]]) := by
  have h1 := one_running_client_partial acts hr folder
  intro tasks
  have e : tasks = (runningOf (Ext.new.run acts) folder).flatMap
      fun c => provideTasks fsPath ⟨c.folder, exe c⟩ := by
    show (offered fsPath exe (Ext.new.run acts)).filter _ = _
    unfold offered providers
    rw [offered_in]
    unfold runningOf
    congr 1
    apply List.filter_congr
    intro c _
    exact Bool.and_comm _ _
  cases hc : runningOf (Ext.new.run acts) folder with
  | nil => rw [hc] at e; exact ⟨fun _ => e, fun h => absurd rfl h⟩
  | cons c cs =>
    rw [hc] at e h1
    have : cs = [] := by
      cases cs with
      | nil => rfl
      | cons d ds => simp at h1
    subst this
    refine ⟨fun h => (by cases h), fun _ => ?_⟩
    rw [e]
    simp [provideTasks, defs]

/-- **C113**, the part on written tasks that holds: what is run for a written task is its command line. -/
theorem written_task_runs_partial (fsPath : Folder → Text) (exe : Client → Text) (s : Ext) (d : Definition) (t : EditorTask)
    (h : CanRun fsPath exe s d t) : ∃ c ∈ s.clients, c.running = true ∧
      Runs fsPath (exe c) t c.folder d.commandLine := by
  rcases h with ⟨p, _, hp⟩ | ⟨_, ht, rfl⟩
  · cases hp
  · obtain ⟨c, h1, h2, sub, h3, _, h5, _⟩ := offered_task_does_what_it_says fsPath exe s t ht
    refine ⟨c, h1, h2, ?_⟩
    rw [h5]
    exact h3

/-- **C113**, exactly which written tasks can be run: those without arguments for the two commands. -/
theorem written_task_runs_iff (fsPath : Folder → Text) (exe : Client → Text) (s : Ext) (d : Definition) :
    (∃ t, CanRun fsPath exe s d t) ↔ d.type = "dove".toList ∧ d.args = none ∧
      (d.subcommand = "build".toList ∨ d.subcommand = "test".toList) ∧ ∃ c ∈ s.clients, c.running = true := by
  constructor
  · rintro ⟨t, ⟨p, _, hp⟩ | ⟨_, ht, rfl⟩⟩
    · cases hp
    · obtain ⟨c, h1, h2, sub, _, _, h5, h6⟩ := offered_task_does_what_it_says fsPath exe s t ht
      rw [h5]
      refine ⟨rfl, rfl, ?_, c, h1, h2⟩
      rcases h6 with h6 | h6
      · exact .inl h6.1
      · exact .inr h6.1
  · rintro ⟨h1, h2, h3, c, h4, h5⟩
    obtain ⟨type, subcommand, args⟩ := d
    simp only at h1 h2 h3
    subst h1 h2
    rcases h3 with rfl | rfl
    · refine ⟨_, .inr ⟨fun _ _ => rfl, (mem_offered fsPath exe s _).2 ⟨c, h4, h5, List.mem_cons_self⟩, rfl⟩⟩
    · refine ⟨_, .inr ⟨fun _ _ => rfl, (mem_offered fsPath exe s _).2 ⟨c, h4, h5,
        List.mem_cons_of_mem _ List.mem_cons_self⟩, rfl⟩⟩

/-- **C113**, what the extension declares: a task written down with arguments can be run.  The code violates it in
every state and for all arguments. -/
theorem arguments_are_never_run (fsPath : Folder → Text) (exe : Client → Text) (s : Ext) (type sub : Text)
    (args : List Text) : ¬ ∃ t, CanRun fsPath exe s ⟨type, sub, some args⟩ t := by
  intro h
  have := ((written_task_runs_iff fsPath exe s _).1 h).2.1
  cases this

/-! ### Witnesses -/

/-- A document of folder 7 is opened and its client started. -/
def oneFolder : List Action :=
  [.event 7 true, .resume 0 .yes, .resume 0 .yes, .resume 0 .yes, .resume 0 .yes]

/-- The hypotheses are met by a folder with a client and one without. -/
example : CalmReloads Ext.new oneFolder ∧ runningOf (Ext.new.run oneFolder) 7 ≠ [] ∧
    runningOf (Ext.new.run oneFolder) 8 = [] := by
  refine ⟨⟨by simp, by simp, by simp, by simp, by simp, trivial⟩, by decide, by decide⟩

example : (offered (fun _ => "/p".toList) (fun _ => "/dove".toList) (Ext.new.run oneFolder)).map
    (fun t => (t.name, t.cwd)) = [("dove build".toList, "/p".toList), ("dove test".toList, "/p".toList)] := by decide

/-- A written task that is run, and one with arguments that is not. -/
example : (∃ t, CanRun (fun _ => []) (fun _ => []) (Ext.new.run oneFolder) ⟨"dove".toList, "test".toList, none⟩ t) ∧
    ¬ ∃ t, CanRun (fun _ => []) (fun _ => []) (Ext.new.run oneFolder)
      ⟨"dove".toList, "test".toList, some ["-v".toList]⟩ t :=
  ⟨(written_task_runs_iff ..).2 ⟨rfl, rfl, .inr rfl, ⟨0, 7, true⟩, by decide, rfl⟩, arguments_are_never_run _ _ _ _ _ _⟩

end Verif.Editor.Tasks
