set_option autoImplicit false

/-!
Model of the activation and the reload of the editor extension, `/repo/editors/code/src/extension.ts`.

The code between two `await`s runs without interruption.  Whatever waits is a part of the state and goes on
at any later time: the activation, the checks of changed `Dove.toml` files, and calls of `move.reload`.
The clients themselves are in `WsModel`.
-/

namespace Verif.Editor.Activate

/-- What the extension registers, in the order of extension.ts. -/
inductive Handler where
  /-- the factory of clients, which is disposed like the others, 32 -/
  | factory
  /-- `onDidChangeActiveTextEditor`, 33-37 -/
  | activeEditor
  /-- `onDidSaveTextDocument`, 38-44 -/
  | saveInit
  /-- the command `move.reload`, 51-67 -/
  | reload
  /-- `onDidChangeConfiguration`, 90-95 -/
  | config
  /-- `onDidCreateFiles`, 96-100 -/
  | create
  /-- `onDidDeleteFiles`, 101-105 -/
  | delete
  /-- `onDidSaveTextDocument`, 106-108 -/
  | saveToml
  deriving DecidableEq, Repr

/-- A registration of the editor; its disposable is known by the number. -/
structure Reg where
  id : Nat
  what : Handler
  deriving DecidableEq, Repr

/-- The editor and the extension. -/
structure State where
  /-- the registrations that have not been disposed -/
  live : List Reg
  /-- `context.subscriptions` -/
  subs : List Nat
  /-- the number of the next registration -/
  next : Nat
  /-- activations that wait for the first client, 47 -/
  waiting : Nat
  /-- runs of handlers that wait for the check of a `Dove.toml`, 76-79: which of the files behind it are
  `Dove.toml` files of a folder -/
  checks : List (List Bool)
  /-- calls of `executeCommand('move.reload')` that have not arrived -/
  calls : Nat
  /-- activations begun -/
  activations : Nat
  deriving DecidableEq, Repr

/-- Register and push the disposable, e.g. 33-37. -/
def register (s : State) (h : Handler) : State :=
  { s with live := s.live ++ [⟨s.next, h⟩], subs := s.subs ++ [s.next], next := s.next + 1 }

def registerAll (s : State) (hs : List Handler) : State := hs.foldl register s

/-- `tryActivate` up to its `await`, 24-47. -/
def activate (s : State) : State :=
  let s := registerAll s [.factory, .activeEditor, .saveInit]
  { s with waiting := s.waiting + 1, activations := s.activations + 1 }

/-- The rest of `tryActivate`, 49-109.  `registerCommand` throws if the command is registered already. -/
def finishActivate (s : State) : State :=
  if s.live.any fun r => r.what == .reload then s
  else registerAll s [.reload, .config, .create, .delete, .saveToml]

/-- The command `move.reload`, 52-66: the loop disposes everything in `context.subscriptions`. -/
def reload (s : State) : State :=
  activate { s with live := s.live.filter fun r => !s.subs.contains r.id, subs := [] }

/-- A handler over the files of an event, 97-99: files that are no `Dove.toml` of a folder are passed over,
71-73; at the first other one it waits. -/
def goOn (files : List Bool) : List (List Bool) :=
  match files.dropWhile (!·) with
  | [] => []
  | _ :: rest => [rest]

/-- How often a handler is registered. -/
def times (s : State) (h : Handler) : Nat := (s.live.filter fun r => r.what == h).length

/-- The result of checking a `Dove.toml`. -/
inductive Checked where
  | valid | invalid | rejected
  deriving DecidableEq, Repr

/-- A check is done, 79-86, and the loop of its handler goes on. -/
def checked (s : State) (i : Nat) (r : Checked) : State :=
  match s.checks[i]? with
  | none => s
  | some rest =>
    let s := { s with checks := s.checks.eraseIdx i }
    match r with
    | .valid => { s with calls := s.calls + 1, checks := s.checks ++ goOn rest }
    | .invalid => { s with checks := s.checks ++ goOn rest }
    | .rejected => s

/-- What can happen. -/
inductive Action where
  /-- the first client has been started, or not, 47 -/
  | settle (ok : Bool)
  /-- a setting of the extension has changed, 90-95 -/
  | config
  /-- files were created, deleted or saved, 96-108 -/
  | files (h : Handler) (files : List Bool)
  /-- the result of the check number `i` -/
  | check (i : Nat) (r : Checked)
  /-- the user calls the command -/
  | user
  /-- a call of the command arrives -/
  | deliver
  deriving DecidableEq, Repr

def step (s : State) : Action → State
  | .settle ok =>
    if s.waiting = 0 then s
    else
      let s := { s with waiting := s.waiting - 1 }
      if ok then finishActivate s else s
  | .config => { s with calls := s.calls + times s .config }
  | .files h files =>
    if h = .create ∨ h = .delete ∨ h = .saveToml then
      { s with checks := s.checks ++ (List.replicate (times s h) (goOn files)).flatten }
    else s
  | .check i r => checked s i r
  | .user => { s with calls := s.calls + 1 }
  | .deliver =>
    if s.calls = 0 then s
    else
      let s := { s with calls := s.calls - 1 }
      if s.live.any fun r => r.what == .reload then reload s else s

/-- The editor activates the extension. -/
def start : State := activate ⟨[], [], 0, 0, [], 0, 0⟩

def run (acts : List Action) : State := acts.foldl step start

end Verif.Editor.Activate
