import Verif.Db.Model
import Verif.Diagnostics.Model
import Verif.LineEndings.Model

/-!
Model of the event loop: `crates/move_language_server/src/{main_loop,global_state,mem_docs,
dispatch,reload,thread_pool,handlers}.rs`.  `none` is a panic of the main thread.

Simplifications:
* File contents are texts.  The code stores `String::into_bytes` and reads back with
  `String::from_utf8`, which inverts it; nothing else writes to the store.
* A document URI is the bytes of the path it denotes, `none` when it is not a file URL.  The URL of a path
  denotes that path again (`Verif.Urls.published_uri_leads_back`).
* The queries of the analysis are one function of the file text, `Env.diagnostics`
  (`handlers::publish_diagnostics`, including the conversion of ranges); `none` is a panic
  there.  `Verif.Pipeline` instantiates it with the model of the parser.
* Logging, the status (constant, never shown: `current_status` always has health `Ok`), timing
  and the workspace-loading thread (it sends nothing) are left out.
* `lsp_server::ReqQueue` is modelled after its documented behaviour: `register` inserts into
  a map, `complete` removes (for outgoing requests with `unwrap`), `cancel` completes and makes
  a `RequestCanceled` response.
-/

namespace Verif.Server

open Verif.FileSet Verif.Vfs Verif.Db Verif.Diagnostics Verif.LineEndings

/-- `lsp_server::RequestId`. -/
inductive RequestId where
  | num (n : Int)
  | str (s : List Char)
deriving DecidableEq, Repr

/-- Payload of a response, by `lsp_server::ErrorCode`. -/
inductive Reply where
  | ok
  | invalidRequest
  | methodNotFound
  | invalidParams
  | requestCanceled
deriving DecidableEq, Repr

/-- Messages to the client. -/
inductive Out where
  | response (id : RequestId) (reply : Reply)
  | registerCapability (id : Nat)
  | publishDiagnostics (path : VfsPath) (diagnostics : List Diagnostic) (version : Option Int)
deriving DecidableEq, Repr

/-- Messages from the client, after JSON decoding.  `malformed` is a notification with a
method the server handles and parameters of the wrong shape. -/
inductive Msg where
  | shutdown (id : RequestId) (paramsOk : Bool)
  | otherRequest (id : RequestId)
  | cancel (id : RequestId)
  | workDoneProgressCancel
  | didOpen (uri : Option Bytes) (version : Int) (text : Text)
  | didChange (uri : Option Bytes) (version : Int) (changes : List Edits.Change)
  | didClose (uri : Option Bytes)
  | exit
  | otherNotification
  | malformed
  | response (id : Nat)

/-- `Task`, main_loop.rs:78-81. -/
inductive Task where
  | response (id : RequestId) (reply : Reply)
  | diagnostics (perFile : List (Nat × List Diagnostic))

/-- A job given to the thread pool, thread_pool.rs:15-24: either still working on a snapshot of
the database, or done and about to send its result. -/
inductive Job where
  | running (subscriptions : List Nat) (snapshot : Db)
  | finished (task : Task)

/-- `MemDocs`, mem_docs.rs:13-16, 57-59; the data of a document is its version. -/
structure MemDocs where
  docs : AMap VfsPath Int
  addedOrRemoved : Bool

/-- `SourceRootConfig`, reload.rs:69-72. -/
structure SourceRootConfig where
  fsc : FileSetConfig
  localFilesets : List Nat

/-- `SourceRootConfig::default()`: `FileSetConfig::default()` is the builder without roots
(file_set.rs:95-99), which does not panic (`build_total`). -/
def SourceRootConfig.default : SourceRootConfig := ⟨⟨1, []⟩, []⟩

/-- `GlobalState`, global_state.rs:43-62, with the channel of finished tasks, the jobs of the
pool in the order they were spawned, and everything sent to the client so far. -/
structure State where
  vfs : Vfs VfsPath Text
  lineEndings : AMap Nat LineEndings
  memDocs : MemDocs
  db : Db
  diagnostics : Collection
  sourceRootConfig : SourceRootConfig
  incoming : AMap RequestId Unit
  outgoing : List Nat
  shutdownRequested : Bool
  jobs : List Job
  channel : List Task
  out : List Out

/-- What the server is run with. -/
structure Env where
  /-- `handlers::publish_diagnostics` on a file text; `none` is a panic. -/
  diagnostics : Text → Option (List Diagnostic)

/-- `GlobalState::new`, global_state.rs:74-103, and the start of `run`, main_loop.rs:85-112. -/
def State.init (cfg : SourceRootConfig) (dynamicRegistration : Bool) : State where
  vfs := Vfs.empty
  lineEndings := []
  memDocs := ⟨[], false⟩
  db := Db.new
  diagnostics := Collection.empty
  sourceRootConfig := cfg
  incoming := []
  outgoing := if dynamicRegistration then [0] else []
  shutdownRequested := false
  jobs := []
  channel := []
  out := if dynamicRegistration then [.registerCapability 0] else []

/-- `send`, global_state.rs:202-204. -/
def State.send (s : State) (m : Out) : State := { s with out := s.out ++ [m] }

/-- `register_request`, global_state.rs:182-190. -/
def State.registerRequest (s : State) (id : RequestId) : State :=
  { s with incoming := s.incoming.insert id () }

/-- `respond`, global_state.rs:191-195. -/
def State.respond (s : State) (id : RequestId) (reply : Reply) : State :=
  match s.incoming.get id with
  | some () => State.send { s with incoming := s.incoming.erase id } (.response id reply)
  | none => s

/-- `cancel`, global_state.rs:196-200. -/
def State.cancel (s : State) (id : RequestId) : State :=
  match s.incoming.get id with
  | some () => State.send { s with incoming := s.incoming.erase id } (.response id .requestCanceled)
  | none => s

/-- `complete_request`, global_state.rs:169-172; the handlers do nothing. -/
def State.completeRequest (s : State) (id : Nat) : Option State :=
  if id ∈ s.outgoing then some { s with outgoing := s.outgoing.filter (· ≠ id) } else none

/-- `on_request`, main_loop.rs:218-238, with `on_sync_mut`, `parse` and `finish` of
dispatch.rs:34-54, 112-150.  `method` is `some paramsOk` for `shutdown`. -/
def State.onRequest (s : State) (id : RequestId) (method : Option Bool) : State :=
  let s := s.registerRequest id
  if s.shutdownRequested then s.respond id .invalidRequest
  else match method with
    | some true => State.respond { s with shutdownRequested := true } id .ok
    | some false => s.respond id .invalidParams
    | none => s.respond id .methodNotFound

/-- `MemDocs::insert`, mem_docs.rs:22-28 (the result is only logged). -/
def MemDocs.insert (m : MemDocs) (p : VfsPath) (version : Int) : MemDocs :=
  ⟨m.docs.insert p version, true⟩

/-- `MemDocs::remove`, mem_docs.rs:29-35 (the result is only logged). -/
def MemDocs.remove (m : MemDocs) (p : VfsPath) : MemDocs := ⟨m.docs.erase p, true⟩

/-- The handler of `didOpen`, main_loop.rs:256-271. -/
def State.didOpen (s : State) (uri : Option Bytes) (version : Int) (text : Text) : Option State :=
  match uri with
  | none => some s
  | some bytes =>
    let path := VfsPath.pathBuf bytes
    match s.vfs.setFileContents path (some text) with
    | none => none
    | some (vfs, _) => some { s with memDocs := s.memDocs.insert path version, vfs := vfs }

/-- The handler of `didChange`, main_loop.rs:272-294. -/
def State.didChange (s : State) (uri : Option Bytes) (version : Int) (changes : List Edits.Change) :
    Option State :=
  match uri with
  | none => some s
  | some bytes =>
    let path := VfsPath.pathBuf bytes
    match s.memDocs.docs.get path with
    | none => some s
    | some _ =>
      let s := { s with memDocs := { s.memDocs with docs := s.memDocs.docs.insert path version } }
      match s.vfs.fileId path with
      | some (some fileId) =>
        match s.vfs.fileContents fileId with
        | none => none
        | some text =>
          match Edits.applyDocumentChanges text changes with
          | none => none
          | some text =>
            match s.vfs.setFileContents path (some text) with
            | none => none
            | some (vfs, _) => some { s with vfs := vfs }
      | _ => none

/-- The handler of `didClose`, main_loop.rs:295-302. -/
def State.didClose (s : State) (uri : Option Bytes) : State :=
  match uri with
  | none => s
  | some bytes => { s with memDocs := s.memDocs.remove (.pathBuf bytes) }

/-- The `Event::Lsp` case of `handle_event`, main_loop.rs:142-148, with `on_notification`,
main_loop.rs:240-305.  `exit` is handled by `run` before. -/
def State.onMessage (s : State) : Msg → Option State
  | .shutdown id paramsOk => some (s.onRequest id (some paramsOk))
  | .otherRequest id => some (s.onRequest id none)
  | .cancel id => some (s.cancel id)
  | .workDoneProgressCancel => some s
  | .didOpen uri version text => s.didOpen uri version text
  | .didChange uri version changes => s.didChange uri version changes
  | .didClose uri => some (s.didClose uri)
  | .exit => some s
  | .otherNotification => some s
  | .malformed => none
  | .response id => s.completeRequest id

/-- One received task, main_loop.rs:151-158. -/
def State.onTask (s : State) : Task → State
  | .response id reply => s.respond id reply
  | .diagnostics perFile =>
    { s with diagnostics := perFile.foldl (fun c fd => c.setNativeDiagnostics fd.1 fd.2) s.diagnostics }

/-- The loop that drains the channel, main_loop.rs:149-165. -/
def State.onTasks (s : State) : State :=
  s.channel.foldl State.onTask { s with channel := [] }

/-- `SourceRootConfig::partition`, reload.rs:75-90. -/
def SourceRootConfig.partition (c : SourceRootConfig) (v : Vfs VfsPath Text) : Option (List SourceRoot) :=
  match c.fsc.partition v with
  | none => none
  | some sets => some (sets.mapIdx (fun idx set => ⟨!c.localFilesets.contains idx, set⟩))

/-- `VfsPath::as_path`, vfs_path.rs:29-34: `None` for virtual paths. -/
def isReal : VfsPath → Bool
  | .pathBuf _ => true
  | .virtualPath _ => false

/-- The loop over the changed files, global_state.rs:118-141: returns the line endings, the
files of the change and `has_structure_changes`. -/
def collectChanges (v : Vfs VfsPath Text) :
    List ChangedFile → AMap Nat LineEndings → List (Nat × Option Text) → Bool →
    Option (AMap Nat LineEndings × List (Nat × Option Text) × Bool)
  | [], endings, files, structure_ => some (endings, files, structure_)
  | file :: rest, endings, files, structure_ =>
    match v.filePath file.fileId with
    | none => none
    | some path =>
      let structure_ := structure_ || (isReal path && file.isCreatedOrDeleted)
      if file.exists then
        match v.fileContents file.fileId with
        | none => none
        | some text =>
          let (text, e) := normalize text
          collectChanges v rest (endings.insert file.fileId e) (files ++ [(file.fileId, some text)]) structure_
      else collectChanges v rest endings (files ++ [(file.fileId, none)]) structure_

/-- `handlers::publish_diagnostics` in a worker, handlers.rs:7-36: `file_line_index` indexes the
line-endings map (global_state.rs:222-227) and the file text must be set; the outer `none` is a
panic of the worker. -/
def publishDiagnostics (env : Env) (endings : AMap Nat LineEndings) (snapshot : Db) (f : Nat) :
    Option (Nat × List Diagnostic) :=
  match endings.get f with
  | none => none
  | some _ =>
    match snapshot.fileText.get f with
    | none => none
    | some text =>
      match env.diagnostics text with
      | none => none
      | some ds => some (f, ds)

/-- The closure run by a worker, main_loop.rs:317-333, on the subscriptions whose queries are
not cancelled.  `none`: the worker panicked and sends nothing. -/
def compute (env : Env) (endings : AMap Nat LineEndings) (snapshot : Db) (subs : List Nat) : Option Task :=
  match subs.mapM (publishDiagnostics env endings snapshot) with
  | none => none
  | some r => some (.diagnostics r)

/-- A write to the database cancels all snapshots and waits until they are dropped
(`apply_change`, ide_db/src/apply_change.rs:12-13): every running job ends now, with the files
it had computed so far, as many as `cuts` says for the job; the queries for the others return
`Cancelled` and are skipped (main_loop.rs:320-330).  The snapshot is dropped before the result
is sent (thread_pool.rs:22), so the result may still be on its way. -/
def cancelRunning (env : Env) (endings : AMap Nat LineEndings) (cuts : Nat → Nat) : List Job → Nat → List Job
  | [], _ => []
  | .finished t :: jobs, i => .finished t :: cancelRunning env endings cuts jobs (i + 1)
  | .running subs snapshot :: jobs, i =>
    match compute env endings snapshot (subs.take (cuts i)) with
    | none => cancelRunning env endings cuts jobs (i + 1)
    | some t => .finished t :: cancelRunning env endings cuts jobs (i + 1)

/-- `process_changes`, global_state.rs:105-151. -/
def State.processChanges (env : Env) (cuts : Nat → Nat) (s : State) : Option (State × Bool) :=
  let (vfs, changed) := s.vfs.takeChanges
  if changed.isEmpty then some ({ s with vfs := vfs }, false)
  else
    match collectChanges vfs changed s.lineEndings [] false with
    | none => none
    | some (endings, files, structure_) =>
      match (if structure_ then (s.sourceRootConfig.partition vfs).map some else some none) with
      | none => none
      | some roots =>
        match s.db.applyChange ⟨roots, files⟩ with
        | none => none
        | some db =>
          some ({ s with
            vfs := vfs
            lineEndings := endings
            db := db
            jobs := cancelRunning env endings cuts s.jobs 0 }, true)

/-- `self.vfs.read().0.file_id(path).unwrap()`, main_loop.rs:311. -/
def subscription (v : Vfs VfsPath Text) (p : VfsPath) : Option Nat :=
  match v.fileId p with
  | some (some id) => some id
  | _ => none

/-- `update_diagnostics`, main_loop.rs:307-334. -/
def State.updateDiagnostics (s : State) : Option State :=
  match s.memDocs.docs.keys.mapM (subscription s.vfs) with
  | none => none
  | some subs => some { s with jobs := s.jobs ++ [.running subs s.db] }

/-- Body of the loop that publishes, main_loop.rs:178-199. -/
def State.publish (s : State) (f : Nat) : Option State :=
  match s.db.fileSourceRoot.get f with
  | none => none
  | some rootId =>
    match s.db.sourceRoot.get rootId with
    | none => none
    | some root =>
      if root.isLibrary then some s
      else
        match s.vfs.filePath f with
        | none => none
        | some path =>
          if isReal path then
            some (s.send (.publishDiagnostics path (s.diagnostics.diagnosticsFor f) (s.memDocs.docs.get path)))
          else none

/-- The publishing part of `handle_event`, main_loop.rs:177-200. -/
def State.publishAll (s : State) : Option State :=
  match s.diagnostics.takeChanges with
  | (_, none) => some s
  | (c, some files) => files.foldlM State.publish { s with diagnostics := c }

/-- `handle_event` after the event itself, main_loop.rs:168-215.  `is_quiescent`
(reload.rs:19-22) is constantly true: all four counters stay 0. -/
def State.afterEvent (env : Env) (cuts : Nat → Nat) (s : State) : Option State :=
  match s.processChanges env cuts with
  | none => none
  | some (s, stateChanged) =>
    let docsChanged := s.memDocs.addedOrRemoved
    let s := { s with memDocs := { s.memDocs with addedOrRemoved := false } }
    match (if stateChanged || docsChanged then s.updateDiagnostics else some s) with
    | none => none
    | some s => s.publishAll

/-- A step of the whole system. -/
inductive Step where
  /-- The main loop takes a message from the connection. -/
  | message (m : Msg) (cuts : Nat → Nat)
  /-- The connection is closed by the client. -/
  | disconnect
  /-- The main loop takes the results waiting in the channel. -/
  | tasks (cuts : Nat → Nat)
  /-- Job `i` of the pool ends its computation. -/
  | finish (i : Nat)
  /-- Job `i` of the pool, which is done, sends its result. -/
  | deliver (i : Nat)

/-- How the main loop is doing. -/
inductive Outcome where
  | running (s : State)
  /-- `run` returned `Ok(())`. -/
  | exited (s : State)
  /-- `run` returned `Err(..)`. -/
  | failed (s : State)
  | panicked

/-- The end of a computation. -/
def State.finishJob (env : Env) (s : State) (i : Nat) : State :=
  match s.jobs[i]? with
  | some (.running subs snapshot) =>
    match compute env s.lineEndings snapshot subs with
    | none => { s with jobs := s.jobs.eraseIdx i }
    | some t => { s with jobs := s.jobs.set i (.finished t) }
  | _ => s

/-- `sender.send(..)`, thread_pool.rs:22. -/
def State.deliverJob (s : State) (i : Nat) : State :=
  match s.jobs[i]? with
  | some (.finished t) => { s with jobs := s.jobs.eraseIdx i, channel := s.channel ++ [t] }
  | _ => s

/-- The main loop with its pool, main_loop.rs:116-135.  Steps that are not enabled (taking from
an empty channel, finishing a job that does not run) do nothing. -/
def step (env : Env) (s : State) : Step → Outcome
  | .message .exit _ => .exited s
  | .message m cuts =>
    match (s.onMessage m).bind (State.afterEvent env cuts) with
    | none => .panicked
    | some s => .running s
  | .disconnect => .failed s
  | .tasks cuts =>
    if s.channel.isEmpty then .running s
    else match s.onTasks.afterEvent env cuts with
      | none => .panicked
      | some s => .running s
  | .finish i => .running (s.finishJob env i)
  | .deliver i => .running (s.deliverJob i)

/-- A run of the system: nothing happens after the loop has ended. -/
def runFrom (env : Env) (s : State) : List Step → Outcome
  | [] => .running s
  | st :: rest =>
    match step env s st with
    | .running s => runFrom env s rest
    | o => o

/-- A run from the start. -/
def run (env : Env) (cfg : SourceRootConfig) (dynamicRegistration : Bool) (steps : List Step) : Outcome :=
  runFrom env (State.init cfg dynamicRegistration) steps

end Verif.Server
