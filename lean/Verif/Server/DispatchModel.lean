import Verif.Server.Model

set_option autoImplicit false

/-!
Model of the request dispatcher, `/repo/crates/move_language_server/src/dispatch.rs`, for arbitrary
routes, and of the way of an answer through the pool and the main loop.

`G` is the state of the server, `J` an undecoded parameter, `P` a decoded one.  Values of answers are texts.
Simplified: a handler is a function, so that a task computes its answer when it is started, on the snapshot
it is given; the queue of requests is the list of their identifiers.
-/

namespace Verif.Server.Dispatch

/-- What a response has besides its identifier: a value or a code and a message. -/
inductive Body where
  | ok (value : Text)
  | err (code : Int) (message : Text)
deriving DecidableEq, Repr

/-- `lsp_server::Response`. -/
structure Response where
  id : RequestId
  body : Body
deriving DecidableEq, Repr

/-- An error of a handler: an `LspError` (lib.rs:35-39), a cancelled query, or any other. -/
inductive Failure where
  | lsp (code : Int) (message : Text)
  | cancelled
  | other (message : Text)
deriving DecidableEq, Repr

/-- How a handler ends; the message of a panic, if its payload is a text. -/
inductive Ran where
  | returned (value : Text)
  | failed (e : Failure)
  | panicked (message : Option Text)
deriving DecidableEq, Repr

/-- `lsp_server::ErrorCode`. -/
def invalidParams : Int := -32602
def methodNotFound : Int := -32601
def internalError : Int := -32603
def contentModified : Int := -32801
def requestCanceled : Int := -32800

/-- `result_to_response` and `thread_result_to_response`, dispatch.rs:153-213. -/
def Ran.body : Ran → Body
  | .returned v => .ok v
  | .failed (.lsp code message) => .err code message
  | .failed .cancelled => .err contentModified "content modified".toList
  | .failed (.other message) => .err internalError message
  | .panicked none => .err internalError "server panicked".toList
  | .panicked (some m) => .err internalError ("server panicked".toList ++ (": ".toList ++ m))

/-- The three ways to add a route: `on_sync_mut` (dispatch.rs:34-54), `on_sync` (57-79) and `on` (82-110). -/
inductive Handler (G P : Type) where
  | syncMut (f : G → P → G × Ran)
  | sync (f : G → P → Ran)
  | pool (f : G → P → Ran)

structure Route (G J P : Type) where
  method : Text
  decode : J → Except Text P
  handler : Handler G P

structure Request (J : Type) where
  id : RequestId
  method : Text
  params : J

/-- The state: the requests in flight, the messages sent, the tasks of the pool that run, and their answers
that wait for the main loop. -/
structure State (G : Type) where
  global : G
  incoming : List RequestId
  out : List Response
  jobs : List Response
  tasks : List Response

variable {G J P : Type}

/-- `respond`, global_state.rs:191-195. -/
def State.respond (s : State G) (r : Response) : State G :=
  if r.id ∈ s.incoming then { s with incoming := s.incoming.filter (· ≠ r.id), out := s.out ++ [r] } else s

/-- `cancel`, global_state.rs:196-200. -/
def State.cancel (s : State G) (id : RequestId) : State G :=
  if id ∈ s.incoming then
    { s with incoming := s.incoming.filter (· ≠ id),
             out := s.out ++ [⟨id, .err requestCanceled "canceled by client".toList⟩] }
  else s

/-- `parse` (dispatch.rs:124-150) and the rest of one of the three functions; `none` is a panic that nothing
catches. -/
def onRoute (d : Option (Request J) × State G) (r : Route G J P) : Option (Option (Request J) × State G) :=
  match d.1 with
  | none => some d
  | some req =>
    if req.method = r.method then
      match r.decode req.params with
      | .error e => some (none, d.2.respond ⟨req.id, .err invalidParams e⟩)
      | .ok p =>
        match r.handler with
        | .syncMut f =>
          match f d.2.global p with
          | (_, .panicked _) => none
          | (g, ran) => some (none, State.respond { d.2 with global := g } ⟨req.id, ran.body⟩)
        | .sync f => some (none, d.2.respond ⟨req.id, (f d.2.global p).body⟩)
        | .pool f => some (none, { d.2 with jobs := d.2.jobs ++ [⟨req.id, (f d.2.global p).body⟩] })
    else some d

/-- `finish`, dispatch.rs:112-122. -/
def finish (d : Option (Request J) × State G) : State G :=
  match d.1 with
  | none => d.2
  | some req => d.2.respond ⟨req.id, .err methodNotFound "unknown request".toList⟩

/-- A request: it is registered (main_loop.rs:219, global_state.rs:182-190) and goes through the routes
(231-236). -/
def dispatch (routes : List (Route G J P)) (s : State G) (req : Request J) : Option (State G) :=
  (routes.foldlM onRoute
    (some req, { s with incoming := s.incoming.filter (· ≠ req.id) ++ [req.id] })).map finish

/-- What can happen: a request, a client that cancels one, a task of the pool that ends, its answer taken by the main
loop (main_loop.rs:152), and any other event, which changes the state. -/
inductive Step (G J : Type) where
  | request (req : Request J)
  | cancel (id : RequestId)
  | ended (i : Nat)
  | taken
  | other (f : G → G)

def step (routes : List (Route G J P)) (s : State G) : Step G J → Option (State G)
  | .request req => dispatch routes s req
  | .cancel id => some (s.cancel id)
  | .ended i =>
    match s.jobs[i]? with
    | none => some s
    | some r => some { s with jobs := s.jobs.eraseIdx i, tasks := s.tasks ++ [r] }
  | .taken =>
    match s.tasks with
    | [] => some s
    | r :: rest => some (State.respond { s with tasks := rest } r)
  | .other f => some { s with global := f s.global }

/-- A run from the start; `none` if a panic ended the server. -/
def run (routes : List (Route G J P)) (g : G) (steps : List (Step G J)) : Option (State G) :=
  steps.foldlM (step routes) ⟨g, [], [], [], []⟩

end Verif.Server.Dispatch
