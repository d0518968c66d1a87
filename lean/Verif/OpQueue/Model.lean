set_option autoImplicit false

/-!
Model of `/repo/crates/move_language_server/src/op_queue.rs`.
-/

namespace Verif.OpQueue

/-- `OpQueue`, op_queue.rs:4-8. -/
structure Queue (Output : Type) where
  opRequested : Bool
  opInProgress : Bool
  lastOpResult : Output

variable {Output : Type}

/-- `Default::default`, op_queue.rs:10-14. -/
def Queue.new (default : Output) : Queue Output := ⟨false, false, default⟩

/-- `request_op`, op_queue.rs:17-19. -/
def Queue.requestOp (q : Queue Output) : Queue Output := { q with opRequested := true }

/-- `should_start_op`, op_queue.rs:20-27. -/
def Queue.shouldStartOp (q : Queue Output) : Bool × Queue Output :=
  if q.opInProgress then (false, q)
  else
    let q := { q with opInProgress := q.opRequested }
    let q := { q with opRequested := false }
    (q.opInProgress, q)

/-- `op_completed`, op_queue.rs:28-32; `none` is the failed assertion. -/
def Queue.opCompleted (q : Queue Output) (result : Output) : Option (Queue Output) :=
  if q.opInProgress then some { q with opInProgress := false, lastOpResult := result } else none

/-- A call on the queue. -/
inductive Call (Output : Type) where
  | request
  | shouldStart
  | completed (result : Output)

/-- What a call returns: for `should_start_op` its answer. -/
inductive Event (Output : Type) where
  | requested
  | answered (start : Bool)
  | finished (result : Output)

/-- One call. -/
def Queue.call (q : Queue Output) : Call Output → Option (Event Output × Queue Output)
  | .request => some (.requested, q.requestOp)
  | .shouldStart => let (b, q) := q.shouldStartOp; some (.answered b, q)
  | .completed r => (q.opCompleted r).map fun q => (.finished r, q)

/-- A sequence of calls: the events it makes, oldest first, and the queue. -/
def Queue.calls (q : Queue Output) : List (Call Output) → Option (List (Event Output) × Queue Output)
  | [] => some ([], q)
  | c :: cs =>
    match q.call c with
    | none => none
    | some (e, q) => (q.calls cs).map fun (es, q) => (e :: es, q)

end Verif.OpQueue
