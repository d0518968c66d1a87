import Verif.Server.Model
import Verif.Edits.Props

/-!
The client side of the protocol: what the client believes after the messages it has sent.
-/

set_option autoImplicit false

namespace Verif.Server.Spec

open Verif.FileSet Verif.Edits

/-- An open document as the client sees it. -/
structure Doc where
  version : Int
  text : Text

/-- The client: its open documents by path, and the server requests it has not answered. -/
structure Client where
  docs : Bytes → Option Doc
  unanswered : List Nat

/-- Replace what is known about one path. -/
def Client.set (c : Client) (p : Bytes) (d : Option Doc) : Client :=
  { c with docs := fun q => if q = p then d else c.docs q }

/-- `Says c m c'`: the client in state `c` may send `m`, and is then in state `c'`.  Edits must
be in bounds (`EditsSeq`), parameters well-formed, and only unanswered server requests may be
answered.  Opening twice, and changing or closing a document that is not open, are allowed:
a second opening replaces the document, the others mean nothing. -/
inductive Says : Client → Msg → Client → Prop where
  | shutdown (c id b) : Says c (.shutdown id b) c
  | otherRequest (c id) : Says c (.otherRequest id) c
  | cancel (c id) : Says c (.cancel id) c
  | workDoneProgressCancel (c) : Says c .workDoneProgressCancel c
  | otherNotification (c) : Says c .otherNotification c
  | response (c : Client) (id) : id ∈ c.unanswered →
      Says c (.response id) { c with unanswered := c.unanswered.filter (· ≠ id) }
  | openFile (c p v t) : Says c (.didOpen (some p) v t) (c.set p (some ⟨v, t⟩))
  | openOther (c v t) : Says c (.didOpen none v t) c
  | changeFile (c : Client) (p v) (d : Doc) (es : List Spec.Edit) (t' : Text) : c.docs p = some d →
      Spec.EditsSeq d.text es t' → Says c (.didChange (some p) v (es.map toChange)) (c.set p (some ⟨v, t'⟩))
  | changeUnopened (c : Client) (p v) (cs) : c.docs p = none → Says c (.didChange (some p) v cs) c
  | changeOther (c v cs) : Says c (.didChange none v cs) c
  | closeFile (c p) : Says c (.didClose (some p)) (c.set p none)
  | closeOther (c) : Says c (.didClose none) c

/-- A history of steps in which every message is one the client may send.  Steps of the pool do
not concern the client. -/
inductive History : Client → List Step → Client → Prop where
  | nil (c) : History c [] c
  | message {c m c' steps c''} (cuts) : Says c m c' → History c' steps c'' →
      History c (.message m cuts :: steps) c''
  | tasks {c steps c'} (cuts) : History c steps c' → History c (.tasks cuts :: steps) c'
  | finish {c steps c'} (i) : History c steps c' → History c (.finish i :: steps) c'
  | deliver {c steps c'} (i) : History c steps c' → History c (.deliver i :: steps) c'

/-- The client at first: nothing is open; the server may have sent one request. -/
def Client.init (dynamicRegistration : Bool) : Client :=
  ⟨fun _ => none, if dynamicRegistration then [0] else []⟩

/-- The paths opened in a history. -/
def opened : List Step → List Bytes
  | [] => []
  | .message (.didOpen (some p) _ _) _ :: steps => p :: opened steps
  | _ :: steps => opened steps

end Verif.Server.Spec
