set_option autoImplicit false

/-!
Model of `ClientWorkspaceFactory` and `ClientWorkspace`, `/repo/editors/code/src/components/ws.ts`, and of
the reload in `/repo/editors/code/src/extension.ts`.

JavaScript runs the code between two `await`s without interruption, so a call of the asynchronous
function is a task that stops at each `await` and is resumed, in any order, with the outcome of the
promise it waits for.
-/

namespace Verif.Editor

/-- A workspace folder; the editor returns the same object for the same folder. -/
abbrev Folder := Nat

/-- Where a call of `initClientWorkspace` waits. -/
inductive Pc where
  /-- `await isDoveInitializedProject(folder)`, ws.ts:40 -/
  | stat
  /-- `await bootstrap(...)`, ws.ts:46 -/
  | bootstrap
  /-- `await dove.metadata(folder)`, ws.ts:68 -/
  | metadata
  /-- `await dove.metadataWithErrorMessage(this.folder)` in `start`, ws.ts:102 -/
  | startMetadata
  /-- `await ws.start(dove)` when `start` has returned, ws.ts:74 -/
  | startReturn
  | done
  deriving DecidableEq, Repr

/-- A call of `initClientWorkspace`. -/
structure Task where
  factory : Nat
  folder : Folder
  isMove : Bool
  pc : Pc
  deriving DecidableEq, Repr

/-- The fields of `ClientWorkspaceFactory`, ws.ts:16-27; the map is from folders to whether there is a
`ClientWorkspace`. -/
structure Factory where
  workspaces : Folder → Bool
  executables : Bool
  activeWorkspace : Option Folder

/-- A language client, ws.ts:106-112, and whether it has been asked to stop. -/
structure Client where
  factory : Nat
  folder : Folder
  running : Bool
  deriving DecidableEq, Repr

/-- The extension: the factories made so far, the one that receives events, the calls and the
clients. -/
structure Ext where
  factories : Nat → Factory
  current : Nat
  tasks : List Task
  clients : List Client

/-- What an awaited promise does: resolve, resolve with `false` or `undefined`, or reject. -/
inductive Outcome where
  | yes | no | reject
  deriving DecidableEq, Repr

def Factory.new : Factory := ⟨fun _ => false, false, none⟩

/-- `tryActivate` before the first event, extension.ts:24-31. -/
def Ext.new : Ext := ⟨fun _ => .new, 0, [], []⟩

def Ext.setFactory (s : Ext) (i : Nat) (f : Factory) : Ext :=
  { s with factories := fun j => if j = i then f else s.factories j }

/-- ws.ts:57-79 up to the next `await`. -/
def lookup (s : Ext) (t : Task) : Ext × Pc :=
  let f := s.factories t.factory
  if !f.workspaces t.folder && t.isMove then
    (s.setFactory t.factory { f with workspaces := fun g => if g = t.folder then true else f.workspaces g }, .metadata)
  else if f.workspaces t.folder then
    (s.setFactory t.factory { f with activeWorkspace := some t.folder }, .done)
  else (s, .done)

/-- Resuming a task: the code from its `await` up to the next one. -/
def resumeTask (s : Ext) (t : Task) (o : Outcome) : Ext × Pc :=
  match t.pc with
  | .stat =>
    if o = .yes then
      if (s.factories t.factory).executables then lookup s t else (s, .bootstrap)
    else (s, .done)
  | .bootstrap =>
    if o = .reject then (s, .done)
    else lookup (s.setFactory t.factory { s.factories t.factory with executables := true }) t
  | .metadata =>
    -- the result is a pair, so `if (!metadata) return;` never returns
    if o = .reject then (s, .done) else (s, .startMetadata)
  | .startMetadata =>
    match o with
    | .yes => ({ s with clients := s.clients ++ [⟨t.factory, t.folder, true⟩] }, .startReturn)
    | .no => (s, .startReturn)
    | .reject => (s, .done)
  | .startReturn =>
    (s.setFactory t.factory { s.factories t.factory with activeWorkspace := some t.folder }, .done)
  | .done => (s, .done)

/-- What can happen. -/
inductive Action where
  /-- an editor event with a document of a folder, extension.ts:34-47 -/
  | event (folder : Folder) (isMove : Bool)
  /-- the promise the task waits for is settled -/
  | resume (task : Nat) (o : Outcome)
  /-- `move.reload`, extension.ts:52-66: dispose the factory, ws.ts:81-84, which stops its clients,
  ws.ts:117-125, and activate again -/
  | reload
  deriving DecidableEq, Repr

def Ext.step (s : Ext) : Action → Ext
  | .event folder isMove => { s with tasks := s.tasks ++ [⟨s.current, folder, isMove, .stat⟩] }
  | .resume i o =>
    match s.tasks[i]? with
    | none => s
    | some t =>
      let (s', pc) := resumeTask s t o
      { s' with tasks := s'.tasks.set i { t with pc := pc } }
  | .reload =>
    { s with
      clients := s.clients.map fun c => if c.factory = s.current then { c with running := false } else c
      current := s.current + 1 }

def Ext.run (s : Ext) (acts : List Action) : Ext := acts.foldl Ext.step s

end Verif.Editor
