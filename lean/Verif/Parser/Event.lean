import Verif.Lexer.Model

set_option autoImplicit false

/-!
Events and markers of the parser, and the replay of events into a tree sink:
`/repo/crates/parser/src/event.rs`, `/repo/crates/parser/src/marker.rs`.
-/

namespace Verif.Parser

/-- crates/parser/src/event.rs:22-82, `Event`. -/
inductive Event where
  | start (kind : Kind) (forwardParent : Option Nat)
  | finish
  | token (kind : Kind) (nRawTokens : Nat)
  | error (msg : String)
  deriving DecidableEq, Repr

/-- event.rs:84-88, `Event::tombstone`. -/
def Event.tombstone : Event := .start .TOMBSTONE none

/-- marker.rs:7-10, `Marker` (the drop bomb is a scoping check, see `Verif.Parser.Check`). -/
structure Marker where
  pos : Nat
  deriving DecidableEq, Repr

/-- marker.rs:48-52, `CompletedMarker`. -/
structure Completed where
  startPos : Nat
  finishPos : Nat
  kind : Kind
  deriving DecidableEq, Repr

/-- parser.rs:155-159, `Parser::start`. -/
def evStart (events : List Event) : Marker × List Event :=
  (⟨events.length⟩, events ++ [.tombstone])

/-- marker.rs:20-32, `Marker::complete`; `none` is `unreachable!()` (or the index panic). -/
def evComplete (m : Marker) (kind : Kind) (events : List Event) : Option (Completed × List Event) :=
  match events[m.pos]? with
  | some (.start _ fp) =>
    some (⟨m.pos, events.length, kind⟩, events.set m.pos (.start kind fp) ++ [.finish])
  | _ => none

/-- marker.rs:36-45, `Marker::abandon`; `none` is `unreachable!()` (or the underflow of
`len() - 1`). -/
def evAbandon (m : Marker) (events : List Event) : Option (List Event) :=
  if events = [] then none
  else if m.pos = events.length - 1 then
    match events[m.pos]? with
    | some (.start .TOMBSTONE none) => some events.dropLast
    | _ => none
  else some events

/-- marker.rs:72-82, `CompletedMarker::precede`; `none` is `unreachable!()`, the index panic or
the underflow of the subtraction. -/
def evPrecede (c : Completed) (events : List Event) : Option (Marker × List Event) :=
  let pos := events.length
  let events : List Event := events ++ [.tombstone]
  match events[c.startPos]? with
  | some (.start kind _) =>
    if c.startPos ≤ pos then some (⟨pos⟩, events.set c.startPos (.start kind (some (pos - c.startPos))))
    else none
  | _ => none

/-- The calls on a `TreeSink` (crates/parser/src/lib.rs:24-36). -/
inductive Op where
  | startNode (kind : Kind)
  | finishNode
  | token (kind : Kind) (nTokens : Nat)
  | error (msg : String)
  deriving DecidableEq, Repr

/-- event.rs:107-120, the loop over the forward parents.  `evs` are the events from the current
one on (relative indices), `none` is `unreachable!()` or an index out of range.  The fuel is the
number of events; the loop moves forward at each turn or stops. -/
def follow : Nat → List Event → Nat → Option Nat → Option (List Kind × List Event)
  | _, evs, _, none => some ([], evs)
  | 0, _, _, some _ => none
  | fuel + 1, evs, idx, some fwd =>
    match evs[idx + fwd]? with
    | some (.start kind fp) =>
      match follow fuel (evs.set (idx + fwd) .tombstone) (idx + fwd) fp with
      | none => none
      | some (kinds, evs') => some (if kind ≠ .TOMBSTONE then kind :: kinds else kinds, evs')
    | _ => none

/-- event.rs:91-133, `process`: the calls made on the sink.  Events before the current index are
never looked at again (forward parents are unsigned), so the recursion is over the remaining
events; the first argument counts the remaining iterations of `for i in 0..events.len()`. -/
def processN : Nat → List Event → Option (List Op)
  | 0, _ => some []
  | n + 1, evs =>
    match evs with
    | [] => none
    | .start kind fp :: rest =>
      if kind = .TOMBSTONE then processN n rest
      else
        match follow (evs.length + 1) (.tombstone :: rest) 0 fp with
        | none => none
        | some (kinds, evs') =>
          (processN n evs'.tail).map fun ops => ((kind :: kinds).reverse.map Op.startNode) ++ ops
    | .finish :: rest => (processN n rest).map (Op.finishNode :: ·)
    | .token kind k :: rest => (processN n rest).map (Op.token kind k :: ·)
    | .error msg :: rest => (processN n rest).map (Op.error msg :: ·)

/-- event.rs:91-133, `process`. -/
def process (evs : List Event) : Option (List Op) := processN evs.length evs

end Verif.Parser
