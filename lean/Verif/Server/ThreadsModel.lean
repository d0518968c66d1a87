/-!
Model of the threads of the server and of what they wait for: the main loop
(`crates/move_language_server/src/main_loop.rs`), the pool (`thread_pool.rs`), the lock around the file store
(`GlobalState::vfs`, global_state.rs:55, a `parking_lot::RwLock`) and the snapshots of the database (salsa).
Data is left out (it is in `Verif.Server`); what is kept is the order in which each thread takes and releases
locks, waits, and gives work to others.

Simplifications:
* Only the main thread writes to the file store and to the database, so there is at most one writer.
* A query costs a number of steps that depends on the file and the query (`cost`); it does not ask for other derived
  queries (`parse`, `line_index`: `base_db/src/lib.rs:77-80`, `ide_db/src/lib.rs:70-73`).
* A query that is computed by one thread is waited for by the others (salsa); if the first one does not end
  it, because it is cancelled or panics, the waiting ones get an error.
* Reading inputs of the database, sending to the unbounded channels and starting threads never wait.
* A worker that panics is replaced (the `threadpool` crate); locks and snapshots are released.
-/

set_option autoImplicit false

namespace Verif.Server.Threads

/-- The derived queries of a worker, ide/src/lib.rs:68-75. -/
inductive Query where
  | lineIndex | parse
  deriving DecidableEq, Repr

/-- Work for the pool. -/
inductive Job where
  /-- `update_diagnostics`, main_loop.rs:307-334: the closure owns a snapshot -/
  | diagnostics (files : List Nat)
  /-- `fetch_workspaces`, reload.rs:33-65: no snapshot, no locks, nothing sent -/
  | load (work : Nat)
  deriving DecidableEq, Repr

/-- Where a worker is, in `publish_diagnostics` for the first of its files, handlers.rs:7-16. -/
inductive Phase where
  /-- before `self.vfs.read()`, global_state.rs:223 -/
  | line
  /-- holding that lock -/
  | locked
  /-- about to ask for a query -/
  | ask (q : Query)
  /-- waiting for another thread that computes it -/
  | blocked (q : Query)
  /-- computing it -/
  | busy (q : Query) (left : Nat)
  deriving DecidableEq, Repr

inductive Worker where
  | idle
  /-- working on a job, with its snapshot -/
  | job (files : List Nat) (phase : Phase)
  /-- done, the snapshot is dropped: `sender.send(task())`, thread_pool.rs:22 -/
  | sending
  | loading (left : Nat)
  deriving DecidableEq, Repr

/-- What the main thread does. -/
inductive Op where
  | lockWrite | unlockWrite | lockRead | unlockRead
  /-- salsa raises the flag that cancels queries -/
  | cancel
  /-- and waits until there is no snapshot, then writes -/
  | write
  | spawn (j : Job)
  /-- `ThreadPool::join`, thread_pool.rs:42-46; then the receiver is dropped, global_state.rs:28-32 -/
  | join
  deriving DecidableEq, Repr

structure State where
  /-- what is left of the event under way -/
  main : List Op
  /-- the main thread holds the lock for writing -/
  writing : Bool
  /-- the main thread holds the lock for reading -/
  reading : Bool
  /-- the main thread waits for readers to leave; no reader is let in meanwhile -/
  parked : Bool
  /-- queries are being cancelled -/
  cancelling : Bool
  /-- the queries that are up to date -/
  memo : List (Nat × Query)
  queue : List Job
  workers : List Worker
  /-- the receiver of the results exists -/
  receiver : Bool
  /-- a worker has sent a result to a receiver that is gone, and panicked -/
  lost : Bool
  deriving DecidableEq, Repr

def Job.hasSnapshot : Job → Bool
  | .diagnostics _ => true
  | .load _ => false

def Worker.hasSnapshot : Worker → Bool
  | .job _ _ => true
  | _ => false

def Worker.reads : Worker → Bool
  | .job _ .locked => true
  | _ => false

/-- The query a worker is computing. -/
def Worker.claim : Worker → Option (Nat × Query)
  | .job (f :: _) (.busy q _) => some (f, q)
  | _ => none

/-- There are snapshots. -/
def State.snapshots (s : State) : Bool := s.queue.any Job.hasSnapshot || s.workers.any Worker.hasSnapshot

def State.readers (s : State) : Bool := s.workers.any Worker.reads

def State.claimed (s : State) (k : Nat × Query) : Bool := s.workers.any fun w => w.claim == some k

/-- The closure begins, main_loop.rs:317, reload.rs:39. -/
def Job.start : Job → Worker
  | .diagnostics files => .job files .line
  | .load work => .loading work

/-- Behind a query, handlers.rs:11-16: diagnostics come after the line index, the next file after that. -/
def after (f : Nat) (files : List Nat) : Query → Worker
  | .lineIndex => .job (f :: files) (.ask .parse)
  | .parse => .job files .line

/-- What can happen at a step of a worker. -/
inductive Choice where
  | go | cancelled | panic
  deriving DecidableEq, Repr

/-- A step of a worker; `none`: it has to wait, or this cannot happen. -/
def workerStep (cost : Nat → Query → Nat) (s : State) (w : Worker) : Choice → Option (Worker × State)
  | .go =>
    match w with
    | .idle =>
      match s.queue with
      | [] => none
      | j :: rest => some (j.start, { s with queue := rest })
    | .job [] _ => some (.sending, s)
    | .job (f :: files) .line => if s.writing || s.parked then none else some (.job (f :: files) .locked, s)
    | .job (f :: files) .locked => some (.job (f :: files) (.ask .lineIndex), s)
    | .job (f :: files) (.ask q) =>
      if s.cancelling then some (.job files .line, s)
      else if (f, q) ∈ s.memo then some (after f files q, s)
      else if s.claimed (f, q) then some (.job (f :: files) (.blocked q), s)
      else some (.job (f :: files) (.busy q (cost f q)), s)
    | .job (f :: files) (.blocked q) =>
      if s.claimed (f, q) then none
      else if (f, q) ∈ s.memo then some (after f files q, s)
      else some (.job files .line, s)
    | .job (f :: files) (.busy q 0) => some (after f files q, { s with memo := (f, q) :: s.memo })
    | .job (f :: files) (.busy q (n + 1)) => some (.job (f :: files) (.busy q n), s)
    | .sending => some (.idle, { s with lost := s.lost || !s.receiver })
    | .loading 0 => some (.idle, s)
    | .loading (n + 1) => some (.loading n, s)
  | .cancelled =>
    match w with
    | .job (_ :: files) (.busy _ _) => if s.cancelling then some (.job files .line, s) else none
    | _ => none
  | .panic =>
    match w with
    | .job (_ :: _) .locked => some (.idle, s)
    | .job (_ :: _) (.busy _ _) => some (.idle, s)
    | .loading _ => some (.idle, s)
    | _ => none

/-- A step of the main thread within an event; `none`: it has to wait. -/
def mainStep (s : State) : Option State :=
  match s.main with
  | [] => none
  | .lockWrite :: rest =>
    if s.writing || s.reading then none
    else if s.readers then (if s.parked then none else some { s with parked := true })
    else some { s with main := rest, writing := true, parked := false }
  | .unlockWrite :: rest => some { s with main := rest, writing := false }
  | .lockRead :: rest => if s.writing then none else some { s with main := rest, reading := true }
  | .unlockRead :: rest => some { s with main := rest, reading := false }
  | .cancel :: rest => some { s with main := rest, cancelling := true }
  | .write :: rest => if s.snapshots then none else some { s with main := rest, cancelling := false, memo := [] }
  | .spawn j :: rest => some { s with main := rest, queue := s.queue ++ [j] }
  | .join :: rest =>
    if s.queue.isEmpty && s.workers.all (· == .idle) then some { s with main := rest, receiver := false } else none

/-- `apply_change`, ide_db/src/apply_change.rs:11-29, with `writes` inputs set (base_db/src/change.rs:42-63):
each write to the database cancels and waits. -/
def applyChange (writes : Nat) : List Op := .cancel :: .write :: (List.replicate writes [Op.cancel, .write]).flatten

/-- `handle_event`, main_loop.rs:137-215.
* `edits`: the message opens or changes a document, main_loop.rs:265-269, 285-291;
* `changed`: the file store has changed: the number of inputs to set, global_state.rs:110-149;
* `subscriptions`: the open documents, if diagnostics are to be computed, main_loop.rs:307-316;
* `published`: how many files get diagnostics, main_loop.rs:178-199. -/
def turn (edits : Bool) (changed : Option Nat) (subscriptions : Option (List Nat)) (published : Nat) : List Op :=
  (if edits then [.lockWrite, .unlockWrite] else []) ++
  [.lockWrite, .unlockWrite] ++
  (match changed with | none => [] | some writes => applyChange writes) ++
  (match subscriptions with
    | none => []
    | some files => (files.map fun _ => [Op.lockRead, .unlockRead]).flatten ++ [.spawn (.diagnostics files)]) ++
  (List.replicate published [Op.lockRead, .unlockRead]).flatten

/-- The end of `run`: the state is dropped, global_state.rs:207-211, then its pool and its receiver,
global_state.rs:28-32, 46. -/
def shutdown : List Op := [.cancel, .write, .join]

/-- The start of `run`, main_loop.rs:114. -/
def boot (work : Nat) : List Op := [.spawn (.load work)]

inductive Label where
  | worker (i : Nat) (c : Choice)
  | main
  /-- the main loop takes an event -/
  | event (edits : Bool) (changed : Option Nat) (subscriptions : Option (List Nat)) (published : Nat)
  /-- the main loop ends, or panics within an event: locks are released while unwinding -/
  | stop
  deriving DecidableEq, Repr

def step (cost : Nat → Query → Nat) (s : State) : Label → Option State
  | .worker i c =>
    match s.workers[i]? with
    | none => none
    | some w =>
      match workerStep cost s w c with
      | none => none
      | some (w, s) => some { s with workers := s.workers.set i w }
  | .main => mainStep s
  | .event edits changed subscriptions published =>
    if s.main.isEmpty && s.receiver then some { s with main := turn edits changed subscriptions published } else none
  | .stop =>
    if s.receiver then some { s with main := shutdown, writing := false, reading := false, parked := false } else none

/-- A pool of some workers, and a main loop that begins. -/
def start (workers work : Nat) : State :=
  ⟨boot work, false, false, false, false, [], [], List.replicate workers .idle, true, false⟩

/-- `Steps cost s ls s'`: the steps `ls` lead from `s` to `s'`. -/
inductive Steps (cost : Nat → Query → Nat) : State → List Label → State → Prop
  | nil (s : State) : Steps cost s [] s
  | cons {s t u : State} {l : Label} {ls : List Label} (h : step cost s l = some t) (hs : Steps cost t ls u) :
      Steps cost s (l :: ls) u

end Verif.Server.Threads
