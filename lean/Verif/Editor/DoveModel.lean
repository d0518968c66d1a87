import Verif.Stdx.Utf8

set_option autoImplicit false

/-!
Model of `/repo/editors/code/src/components/dove.ts`: the run of `dove metadata` and what the language server is told.
`JSON.parse` is a parameter; a value is the metadata or a falsy one (`null`, `0`, …).
-/

namespace Verif.Editor.Dove

open Stdx

/-- The events of a child process that matter here, dove.ts:105-114: a piece of one of its outputs, the error that
it could not be started, which has no listener, and its end. -/
inductive Event where
  | stdout (data : List Nat)
  | stderr (data : List Nat)
  | error
  | close (code : Int)
deriving DecidableEq, Repr

/-- `runCommand`, dove.ts:95-122; `none` while it waits.  `stdout += data` converts the piece to a string. -/
def runCommand : List Event → Text × Text → Option (Text × Text)
  | [], _ => none
  | .stdout data :: es, (out, err) => runCommand es (out ++ lossy data, err)
  | .stderr data :: es, (out, err) => runCommand es (out, err ++ lossy data)
  | .error :: es, s => runCommand es s
  | .close _ :: _, s => some s

/-- `GitDependency`, dove.ts:8-15, as far as it is used. -/
structure GitDependency where
  localPaths : List Text
deriving DecidableEq, Repr

/-- `Metadata`, dove.ts:17-42, as far as it is used. -/
structure Metadata where
  dialect : Text
  accountAddress : Text
  localDependencies : List Text
  gitDependencies : List GitDependency
  modulesDir : Text
deriving DecidableEq, Repr

/-- How a promise is. -/
inductive Promise (α : Type) where
  | waiting
  | rejected
  | resolved (a : α)
deriving DecidableEq, Repr

/-- `metadata`, dove.ts:67-78. -/
def metadata (parse : Text → Option (Option Metadata)) (es : List Event) : Promise (Option Metadata × Text) :=
  match runCommand es ([], []) with
  | none => .waiting
  | some (out, err) =>
    if out = [] then .resolved (none, err)
    else match parse (trim out) with
      | none => .rejected
      | some m => .resolved (m, err)

/-- `metadataWithErrorMessage`, dove.ts:80-89, with the message shown. -/
def metadataWithErrorMessage (parse : Text → Option (Option Metadata)) (es : List Event) :
    Promise (Option Metadata) × Option Text :=
  match metadata parse es with
  | .waiting => (.waiting, none)
  | .rejected => (.rejected, none)
  | .resolved (none, errors) => (.resolved none, some ("Dove.toml is invalid: ".toList ++ errors))
  | .resolved (some m, _) => (.resolved (some m), none)

/-- `MoveLanguageServerInitOpts`, client.ts:13-18; `stdlib_folder` is always null. -/
structure InitOpts where
  dialect : Text
  modulesFolders : List Text
  senderAddress : Text
deriving DecidableEq, Repr

/-- `getServerInitOptsFromMetadata`, dove.ts:44-60. -/
def initOpts (m : Metadata) : InitOpts :=
  let folders := m.localDependencies.foldl (fun fs d => fs ++ [d]) []
  let folders := m.gitDependencies.foldl (fun fs d => fs ++ d.localPaths) folders
  { dialect := m.dialect, modulesFolders := folders ++ [m.modulesDir], senderAddress := m.accountAddress }

end Verif.Editor.Dove
