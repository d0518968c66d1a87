import Verif.Server.Responses

/-!
What the main loop says in the log about the messages it receives, and how notifications find their handlers (C119).
The messages are those of the connection, before their parameters are read; `Verif.Server.Model` has them afterwards.
-/

set_option autoImplicit false

namespace Verif.Server.Logged

open Verif.FileSet Verif.Vfs Verif.Server

variable {J : Type}

/-! ### Model -/

/-- `lsp_server::Message`; `J` are the JSON values. -/
inductive Raw (J : Type) where
  | request (id : RequestId) (method : Text) (params : J)
  | notification (method : Text) (params : J)
  | response (id : Nat)
  deriving DecidableEq, Repr

/-- Reading parameters (serde), for each method the server handles.  A path is `none` if the URI is not one of a
file. -/
structure Reader (J : Type) where
  shutdown : J → Bool
  cancel : J → Option RequestId
  progressCancel : J → Option Unit
  didOpen : J → Option (Option Bytes × Int × Text)
  didChange : J → Option (Option Bytes × Int × List Edits.Change)
  didClose : J → Option (Option Bytes)

/-- The records at level `error`, by the texts and arguments they are made of: main_loop.rs:263, 281, 298 and
dispatch.rs:114, 247.  The record of main_loop.rs:324 is never made: the queries of `publish_diagnostics`
(handlers.rs:11-15) fail only by being cancelled. -/
inductive Entry (J : Type) where
  | duplicateOpen (path : Bytes)
  | unexpectedChange (path : Bytes)
  | orphanClose (path : Bytes)
  | unknownRequest (id : RequestId) (method : Text) (params : J)
  | unhandledNotification (method : Text) (params : J)
  deriving DecidableEq, Repr

/-- What has been logged, and the state, `none` after a panic. -/
structure Handled (J : Type) where
  log : List (Entry J)
  state : Option State

/-- `METHOD` of the types of `lsp_types` named in main_loop.rs:119, 229, 242-295. -/
def shutdownMethod : Text := "shutdown".toList
def exitMethod : Text := "exit".toList
def cancelMethod : Text := "$/cancelRequest".toList
def progressCancelMethod : Text := "window/workDoneProgress/cancel".toList
def openMethod : Text := "textDocument/didOpen".toList
def changeMethod : Text := "textDocument/didChange".toList
def closeMethod : Text := "textDocument/didClose".toList

/-- The method the server registers for, main_loop.rs:104-108. -/
def saveMethod : Text := "textDocument/didSave".toList

/-- The handler of `didOpen`, main_loop.rs:256-271, with `MemDocs::insert`, mem_docs.rs:22-28: `Err` if there was a
document. -/
def openLogged (s : State) (p : Option Bytes × Int × Text) : Handled J :=
  ⟨match p.1 with
    | some path => if (s.memDocs.docs.get (.pathBuf path)).isSome then [.duplicateOpen path] else []
    | none => [],
   s.didOpen p.1 p.2.1 p.2.2⟩

/-- The handler of `didChange`, main_loop.rs:272-294. -/
def changeLogged (s : State) (p : Option Bytes × Int × List Edits.Change) : Handled J :=
  ⟨match p.1 with
    | some path => if (s.memDocs.docs.get (.pathBuf path)).isSome then [] else [.unexpectedChange path]
    | none => [],
   s.didChange p.1 p.2.1 p.2.2⟩

/-- The handler of `didClose`, main_loop.rs:295-302, with `MemDocs::remove`, mem_docs.rs:29-35: `Err` if there was no
document. -/
def closeLogged (s : State) (p : Option Bytes) : Handled J :=
  ⟨match p with
    | some path => if (s.memDocs.docs.get (.pathBuf path)).isSome then [] else [.orphanClose path]
    | none => [],
   some (s.didClose p)⟩

/-- `NotificationDispatcher`, dispatch.rs:214-217, with what has been logged. -/
structure Dispatcher (J : Type) where
  note : Option (Text × J)
  state : State
  log : List (Entry J)

/-- `on`, dispatch.rs:219-242.  `Notification::extract` of lsp_server gives the notification back if the method is
another one, and panics if the parameters cannot be read.  No handler returns an error. -/
def Dispatcher.on {P : Type} (method : Text) (read : J → Option P) (f : State → P → Handled J) (d : Dispatcher J) :
    Except (List (Entry J)) (Dispatcher J) :=
  match d.note with
  | none => .ok d
  | some (m, params) =>
    if m = method then
      match read params with
      | none => .error d.log
      | some p =>
        match (f d.state p).state with
        | none => .error (d.log ++ (f d.state p).log)
        | some s => .ok ⟨none, s, d.log ++ (f d.state p).log⟩
    else .ok d

/-- `finish`, dispatch.rs:244-250. -/
def Dispatcher.finish (d : Dispatcher J) : Dispatcher J :=
  match d.note with
  | none => d
  | some (m, params) => if ("$/".toList).isPrefixOf m then d else { d with log := d.log ++ [.unhandledNotification m params] }

/-- `on_notification`, main_loop.rs:240-305. -/
def onNotification (rd : Reader J) (s : State) (method : Text) (params : J) : Handled J :=
  let r := do
    let d ← Dispatcher.on cancelMethod rd.cancel (fun s id => ⟨[], some (s.cancel id)⟩) ⟨some (method, params), s, []⟩
    let d ← d.on progressCancelMethod rd.progressCancel (fun s _ => ⟨[], some s⟩)
    let d ← d.on openMethod rd.didOpen openLogged
    let d ← d.on changeMethod rd.didChange changeLogged
    let d ← d.on closeMethod rd.didClose closeLogged
    pure d.finish
  match r with
  | .error log => ⟨log, none⟩
  | .ok d => ⟨d.log, some d.state⟩

/-- `on_request`, main_loop.rs:218-238, with `finish`, dispatch.rs:112-122. -/
def onRequest (rd : Reader J) (s : State) (id : RequestId) (method : Text) (params : J) : Handled J :=
  ⟨if s.shutdownRequested || method = shutdownMethod then [] else [.unknownRequest id method params],
   some (s.onRequest id (if method = shutdownMethod then some (rd.shutdown params) else none))⟩

/-- A step of the system, as `Server.Step`. -/
inductive RawStep (J : Type) where
  | message (m : Raw J) (cuts : Nat → Nat)
  | disconnect
  | tasks (cuts : Nat → Nat)
  | finish (i : Nat)
  | deliver (i : Nat)

/-- `handle_event` on a message, main_loop.rs:137-148 and 168-215. -/
def handle (rd : Reader J) (s : State) : Raw J → Handled J
  | .request id method params => onRequest rd s id method params
  | .notification method params => onNotification rd s method params
  | .response id => ⟨[], s.completeRequest id⟩

/-- The test for `exit`, main_loop.rs:117-119. -/
def Raw.isExit : Raw J → Bool
  | .notification method _ => method = exitMethod
  | _ => false

/-- The main loop, main_loop.rs:116-135; `exit` is looked for first. -/
def logStep (rd : Reader J) (env : Env) (s : State) : RawStep J → List (Entry J) × Outcome
  | .message m cuts =>
    if m.isExit then ([], .exited s)
    else
      ((handle rd s m).log, match (handle rd s m).state.bind (State.afterEvent env cuts) with
        | none => .panicked
        | some s => .running s)
  | .disconnect => ([], .failed s)
  | .tasks cuts => ([], step env s (.tasks cuts))
  | .finish i => ([], step env s (.finish i))
  | .deliver i => ([], step env s (.deliver i))

/-- What a run logs, and how it ends. -/
def logFrom (rd : Reader J) (env : Env) (s : State) : List (RawStep J) → List (Entry J) × Outcome
  | [] => ([], .running s)
  | st :: rest =>
    match logStep rd env s st with
    | (log, .running s) => (log ++ (logFrom rd env s rest).1, (logFrom rd env s rest).2)
    | (log, o) => (log, o)

def logRun (rd : Reader J) (env : Env) (cfg : SourceRootConfig) (dyn : Bool) (steps : List (RawStep J)) :
    List (Entry J) × Outcome :=
  logFrom rd env (State.init cfg dyn) steps

/-! ### Specification -/

namespace Spec

/-- The notifications the server knows. -/
def Understood (method : Text) : Prop :=
  method ∈ [exitMethod, cancelMethod, progressCancelMethod, openMethod, changeMethod, closeMethod]

/-- The message is what `Verif.Server` calls `m`. -/
inductive Reads (rd : Reader J) : Raw J → Msg → Prop where
  | shutdown (id p) : Reads rd (.request id shutdownMethod p) (.shutdown id (rd.shutdown p))
  | otherRequest (id m p) : m ≠ shutdownMethod → Reads rd (.request id m p) (.otherRequest id)
  | exit (p) : Reads rd (.notification exitMethod p) .exit
  | cancel (p id) : rd.cancel p = some id → Reads rd (.notification cancelMethod p) (.cancel id)
  | badCancel (p) : rd.cancel p = none → Reads rd (.notification cancelMethod p) .malformed
  | progressCancel (p) : rd.progressCancel p = some () → Reads rd (.notification progressCancelMethod p) .workDoneProgressCancel
  | badProgressCancel (p) : rd.progressCancel p = none → Reads rd (.notification progressCancelMethod p) .malformed
  | didOpen (p u v t) : rd.didOpen p = some (u, v, t) → Reads rd (.notification openMethod p) (.didOpen u v t)
  | badOpen (p) : rd.didOpen p = none → Reads rd (.notification openMethod p) .malformed
  | didChange (p u v cs) : rd.didChange p = some (u, v, cs) → Reads rd (.notification changeMethod p) (.didChange u v cs)
  | badChange (p) : rd.didChange p = none → Reads rd (.notification changeMethod p) .malformed
  | didClose (p u) : rd.didClose p = some u → Reads rd (.notification closeMethod p) (.didClose u)
  | badClose (p) : rd.didClose p = none → Reads rd (.notification closeMethod p) .malformed
  | other (m p) : ¬ Understood m → Reads rd (.notification m p) .otherNotification
  | response (id) : Reads rd (.response id) (.response id)

/-- The same for steps. -/
inductive ReadsStep (rd : Reader J) : RawStep J → Step → Prop where
  | message (m m' cuts) : Reads rd m m' → ReadsStep rd (.message m cuts) (.message m' cuts)
  | disconnect : ReadsStep rd .disconnect .disconnect
  | tasks (cuts) : ReadsStep rd (.tasks cuts) (.tasks cuts)
  | finish (i) : ReadsStep rd (.finish i) (.finish i)
  | deliver (i) : ReadsStep rd (.deliver i) (.deliver i)

/-- The same for sequences of steps. -/
inductive ReadsAll (rd : Reader J) : List (RawStep J) → List Step → Prop where
  | nil : ReadsAll rd [] []
  | cons {st st' rest rest'} : ReadsStep rd st st' → ReadsAll rd rest rest' → ReadsAll rd (st :: rest) (st' :: rest')

/-- The step opens the document. -/
def Opens (rd : Reader J) (path : Bytes) (st : RawStep J) : Prop :=
  ∃ params cuts v t, st = .message (.notification openMethod params) cuts ∧ rd.didOpen params = some (some path, v, t)

/-- The step closes the document. -/
def Closes (rd : Reader J) (path : Bytes) (st : RawStep J) : Prop :=
  ∃ params cuts, st = .message (.notification closeMethod params) cuts ∧ rd.didClose params = some (some path)

/-- After the steps the document is open. -/
def OpenAfter (rd : Reader J) (steps : List (RawStep J)) (path : Bytes) : Prop :=
  ∃ pre st post, steps = pre ++ st :: post ∧ Opens rd path st ∧ ∀ x ∈ post, ¬ Closes rd path x

/-- Among the steps is a request to shut down. -/
def ShutDown (rd : Reader J) (steps : List (RawStep J)) : Prop :=
  ∃ id params cuts, RawStep.message (.request id shutdownMethod params) cuts ∈ steps ∧ rd.shutdown params = true

/-- What there is to complain about a step, after others. -/
inductive Objection (rd : Reader J) (before : List (RawStep J)) : RawStep J → Entry J → Prop where
  /-- A document is opened that is open. -/
  | duplicateOpen (params cuts path v t) : rd.didOpen params = some (some path, v, t) → OpenAfter rd before path →
      Objection rd before (.message (.notification openMethod params) cuts) (.duplicateOpen path)
  /-- A document is changed that is not open. -/
  | unexpectedChange (params cuts path v cs) : rd.didChange params = some (some path, v, cs) → ¬ OpenAfter rd before path →
      Objection rd before (.message (.notification changeMethod params) cuts) (.unexpectedChange path)
  /-- A document is closed that is not open. -/
  | orphanClose (params cuts path) : rd.didClose params = some (some path) → ¬ OpenAfter rd before path →
      Objection rd before (.message (.notification closeMethod params) cuts) (.orphanClose path)
  /-- A request other than to shut down, before one to shut down. -/
  | unknownRequest (id method params cuts) : method ≠ shutdownMethod → ¬ ShutDown rd before →
      Objection rd before (.message (.request id method params) cuts) (.unknownRequest id method params)
  /-- A notification the server does not know, unless the protocol allows to ignore it. -/
  | unhandledNotification (method params cuts) : ¬ Understood method → ¬ "$/".toList <+: method →
      Objection rd before (.message (.notification method params) cuts) (.unhandledNotification method params)

/-- The objections to the steps, after others, in order. -/
inductive Objections (rd : Reader J) : List (RawStep J) → List (RawStep J) → List (Entry J) → Prop where
  | nil (before) : Objections rd before [] []
  | objection {before st rest e log} : Objection rd before st e → Objections rd (before ++ [st]) rest log →
      Objections rd before (st :: rest) (e :: log)
  | fine {before st rest log} : (∀ e, ¬ Objection rd before st e) → Objections rd (before ++ [st]) rest log →
      Objections rd before (st :: rest) log

/-- The steps are the same but for the texts of documents. -/
inductive SameButTexts (rd : Reader J) : RawStep J → RawStep J → Prop where
  | same (st) : SameButTexts rd st st
  | openings (p p' cuts u v t t') : rd.didOpen p = some (u, v, t) → rd.didOpen p' = some (u, v, t') →
      SameButTexts rd (.message (.notification openMethod p) cuts) (.message (.notification openMethod p') cuts)
  | changes (p p' cuts u v cs cs') : rd.didChange p = some (u, v, cs) → rd.didChange p' = some (u, v, cs') →
      SameButTexts rd (.message (.notification changeMethod p) cuts) (.message (.notification changeMethod p') cuts)

/-- The same for sequences of steps. -/
inductive AllSameButTexts (rd : Reader J) : List (RawStep J) → List (RawStep J) → Prop where
  | nil : AllSameButTexts rd [] []
  | cons {st st' rest rest'} : SameButTexts rd st st' → AllSameButTexts rd rest rest' →
      AllSameButTexts rd (st :: rest) (st' :: rest')

end Spec

open Spec

/-! ### The handlers -/

theorem names_differ : [exitMethod, cancelMethod, progressCancelMethod, openMethod, changeMethod, closeMethod].Nodup := by
  decide +kernel

/-- The names are those of the protocol. -/
theorem understood_names (method : Text) : Understood method ↔ method ∈ ["exit".toList, "$/cancelRequest".toList,
    "window/workDoneProgress/cancel".toList, "textDocument/didOpen".toList, "textDocument/didChange".toList,
    "textDocument/didClose".toList] := Iff.rfl

theorem on_other {P : Type} {method m : Text} {params : J} {s : State} {log : List (Entry J)} (read : J → Option P)
    (f : State → P → Handled J) (h : m ≠ method) :
    Dispatcher.on method read f ⟨some (m, params), s, log⟩ = .ok ⟨some (m, params), s, log⟩ := by
  simp [Dispatcher.on, h]

theorem on_done {P : Type} {method : Text} {s : State} {log : List (Entry J)} (read : J → Option P)
    (f : State → P → Handled J) : Dispatcher.on method read f ⟨none, s, log⟩ = .ok ⟨none, s, log⟩ := rfl

/-- What one handler makes of a notification. -/
def handled {P : Type} (read : J → Option P) (f : State → P → Handled J) (s : State) (params : J) : Handled J :=
  match read params with
  | none => ⟨[], none⟩
  | some p => f s p

theorem on_own {P : Type} {method : Text} {params : J} {s : State} (read : J → Option P)
    (f : State → P → Handled J) :
    Dispatcher.on method read f ⟨some (method, params), s, []⟩ =
      match handled read f s params with
      | ⟨log, none⟩ => .error log
      | ⟨log, some t⟩ => .ok ⟨none, t, log⟩ := by
  unfold Dispatcher.on handled
  simp only [if_true]
  cases hr : read params with
  | none => rfl
  | some p =>
    simp only [List.nil_append]
    generalize f s p = h
    rcases h with ⟨log, _ | t⟩ <;> rfl

theorem onNotification_eq (rd : Reader J) (s : State) (method : Text) (params : J) :
    onNotification rd s method params =
      if method = cancelMethod then handled rd.cancel (fun s id => ⟨[], some (s.cancel id)⟩) s params
      else if method = progressCancelMethod then handled rd.progressCancel (fun s _ => ⟨[], some s⟩) s params
      else if method = openMethod then handled rd.didOpen openLogged s params
      else if method = changeMethod then handled rd.didChange changeLogged s params
      else if method = closeMethod then handled rd.didClose closeLogged s params
      else ⟨if ("$/".toList).isPrefixOf method then [] else [.unhandledNotification method params], some s⟩ := by
  unfold onNotification
  simp only [bind, Except.bind, pure, Except.pure]
  by_cases h1 : method = cancelMethod
  · subst h1
    rw [if_pos rfl, on_own]
    generalize handled _ _ s params = h
    rcases h with ⟨log, _ | t⟩ <;> rfl
  rw [on_other _ _ h1, if_neg h1]
  by_cases h2 : method = progressCancelMethod
  · subst h2
    rw [if_pos rfl]
    simp only []
    rw [on_own]
    generalize handled _ _ s params = h
    rcases h with ⟨log, _ | t⟩ <;> rfl
  simp only []
  rw [on_other _ _ h2, if_neg h2]
  by_cases h3 : method = openMethod
  · subst h3
    rw [if_pos rfl]
    simp only []
    rw [on_own]
    generalize handled _ _ s params = h
    rcases h with ⟨log, _ | t⟩ <;> rfl
  simp only []
  rw [on_other _ _ h3, if_neg h3]
  by_cases h4 : method = changeMethod
  · subst h4
    rw [if_pos rfl]
    simp only []
    rw [on_own]
    generalize handled _ _ s params = h
    rcases h with ⟨log, _ | t⟩ <;> rfl
  simp only []
  rw [on_other _ _ h4, if_neg h4]
  by_cases h5 : method = closeMethod
  · subst h5
    rw [if_pos rfl]
    simp only []
    rw [on_own]
    generalize handled _ _ s params = h
    rcases h with ⟨log, _ | t⟩ <;> rfl
  simp only []
  rw [on_other _ _ h5, if_neg h5]
  simp only [Dispatcher.finish]
  split <;> rfl

/-! ### The messages of `Verif.Server` -/

theorem reads_total (rd : Reader J) (m : Raw J) : ∃ m', Reads rd m m' := by
  cases m with
  | request id method params =>
    by_cases h : method = shutdownMethod
    · subst h; exact ⟨_, .shutdown id params⟩
    · exact ⟨_, .otherRequest id method params h⟩
  | response id => exact ⟨_, .response id⟩
  | notification method params =>
    by_cases h0 : method = exitMethod
    · subst h0; exact ⟨_, .exit params⟩
    by_cases h1 : method = cancelMethod
    · subst h1
      cases hr : rd.cancel params with
      | none => exact ⟨_, .badCancel params hr⟩
      | some id => exact ⟨_, .cancel params id hr⟩
    by_cases h2 : method = progressCancelMethod
    · subst h2
      cases hr : rd.progressCancel params with
      | none => exact ⟨_, .badProgressCancel params hr⟩
      | some id => exact ⟨_, .progressCancel params hr⟩
    by_cases h3 : method = openMethod
    · subst h3
      cases hr : rd.didOpen params with
      | none => exact ⟨_, .badOpen params hr⟩
      | some q => exact ⟨_, .didOpen params _ _ _ hr⟩
    by_cases h4 : method = changeMethod
    · subst h4
      cases hr : rd.didChange params with
      | none => exact ⟨_, .badChange params hr⟩
      | some q => exact ⟨_, .didChange params _ _ _ hr⟩
    by_cases h5 : method = closeMethod
    · subst h5
      cases hr : rd.didClose params with
      | none => exact ⟨_, .badClose params hr⟩
      | some q => exact ⟨_, .didClose params _ hr⟩
    exact ⟨_, .other method params (by simp [Understood, h0, h1, h2, h3, h4, h5])⟩

theorem unknown_ne {method : Text} (h : ¬ Understood method) : method ≠ exitMethod ∧ method ≠ cancelMethod ∧
    method ≠ progressCancelMethod ∧ method ≠ openMethod ∧ method ≠ changeMethod ∧ method ≠ closeMethod := by
  simpa [Understood] using h

theorem cancel_ne : cancelMethod ≠ exitMethod := by decide +kernel
theorem progress_ne : progressCancelMethod ≠ exitMethod ∧ progressCancelMethod ≠ cancelMethod := by decide +kernel
theorem open_ne : openMethod ≠ exitMethod ∧ openMethod ≠ cancelMethod ∧ openMethod ≠ progressCancelMethod := by
  decide +kernel
theorem change_ne : changeMethod ≠ exitMethod ∧ changeMethod ≠ cancelMethod ∧ changeMethod ≠ progressCancelMethod ∧
    changeMethod ≠ openMethod := by decide +kernel
theorem close_ne : closeMethod ≠ exitMethod ∧ closeMethod ≠ cancelMethod ∧ closeMethod ≠ progressCancelMethod ∧
    closeMethod ≠ openMethod ∧ closeMethod ≠ changeMethod := by decide +kernel

theorem handle_state {rd : Reader J} {s : State} {m : Raw J} {m' : Msg} (h : Reads rd m m') :
    (m.isExit = true ∧ m' = .exit) ∨ (m.isExit = false ∧ m' ≠ .exit ∧ (handle rd s m).state = s.onMessage m') := by
  cases h with
  | shutdown id p => exact .inr ⟨rfl, by simp, by simp [handle, onRequest, State.onMessage]⟩
  | otherRequest id m p h => exact .inr ⟨rfl, by simp, by simp [handle, onRequest, State.onMessage, h]⟩
  | exit p => exact .inl ⟨by simp [Raw.isExit], rfl⟩
  | cancel p id h =>
    exact .inr ⟨by simp [Raw.isExit, cancel_ne], by simp, by
      simp [handle, onNotification_eq, handled, h, State.onMessage]⟩
  | badCancel p h =>
    exact .inr ⟨by simp [Raw.isExit, cancel_ne], by simp, by
      simp [handle, onNotification_eq, handled, h, State.onMessage]⟩
  | progressCancel p h =>
    exact .inr ⟨by simp [Raw.isExit, progress_ne], by simp, by
      simp [handle, onNotification_eq, handled, h, State.onMessage, progress_ne]⟩
  | badProgressCancel p h =>
    exact .inr ⟨by simp [Raw.isExit, progress_ne], by simp, by
      simp [handle, onNotification_eq, handled, h, State.onMessage, progress_ne]⟩
  | didOpen p u v t h =>
    exact .inr ⟨by simp [Raw.isExit, open_ne], by simp, by
      simp [handle, onNotification_eq, handled, h, State.onMessage, open_ne, openLogged]⟩
  | badOpen p h =>
    exact .inr ⟨by simp [Raw.isExit, open_ne], by simp, by
      simp [handle, onNotification_eq, handled, h, State.onMessage, open_ne]⟩
  | didChange p u v t h =>
    exact .inr ⟨by simp [Raw.isExit, change_ne], by simp, by
      simp [handle, onNotification_eq, handled, h, State.onMessage, change_ne, changeLogged]⟩
  | badChange p h =>
    exact .inr ⟨by simp [Raw.isExit, change_ne], by simp, by
      simp [handle, onNotification_eq, handled, h, State.onMessage, change_ne]⟩
  | didClose p u h =>
    exact .inr ⟨by simp [Raw.isExit, close_ne], by simp, by
      simp [handle, onNotification_eq, handled, h, State.onMessage, close_ne, closeLogged]⟩
  | badClose p h =>
    exact .inr ⟨by simp [Raw.isExit, close_ne], by simp, by
      simp [handle, onNotification_eq, handled, h, State.onMessage, close_ne]⟩
  | other m p h =>
    obtain ⟨h0, h1, h2, h3, h4, h5⟩ := unknown_ne h
    exact .inr ⟨by simp [Raw.isExit, h0], by simp, by
      simp [handle, onNotification_eq, State.onMessage, h1, h2, h3, h4, h5]⟩
  | response id => exact .inr ⟨rfl, by simp, rfl⟩

theorem logStep_state {rd : Reader J} {env : Env} {s : State} {st : RawStep J} {st' : Step} (h : ReadsStep rd st st') :
    (logStep rd env s st).2 = step env s st' := by
  cases h with
  | message m m' cuts h =>
    rcases handle_state (s := s) h with ⟨h1, rfl⟩ | ⟨h1, h2, h3⟩
    · simp [logStep, h1, step]
    · simp only [logStep, h1, Bool.false_eq_true, if_false, h3]
      cases m' <;> first | exact absurd rfl h2 | rfl
  | disconnect => rfl
  | tasks cuts => rfl
  | finish i => rfl
  | deliver i => rfl

theorem logFrom_state {rd : Reader J} {env : Env} {steps : List (RawStep J)} {steps' : List Step}
    (h : ReadsAll rd steps steps') (s : State) :
    (logFrom rd env s steps).2 = runFrom env s steps' := by
  induction h generalizing s with
  | nil => rfl
  | @cons st st' rest rest' h _ ih =>
    have h1 := logStep_state (env := env) (s := s) h
    unfold logFrom runFrom
    rw [← h1]
    generalize logStep rd env s st = r
    rcases r with ⟨log, o⟩
    cases o <;> simp [ih]

/-- **C119.**  A notification comes to the handler for its method and to no other, a request to shut down to its own: the
main loop goes through the same states as the one of `Verif.Server`, which has the messages with their parameters read.
So what is said there about runs holds for what comes from the connection. -/
theorem messages_reach_their_handlers (rd : Reader J) (env : Env) (cfg : SourceRootConfig) (dyn : Bool)
    (steps : List (RawStep J)) :
    ∃ steps', ReadsAll rd steps steps' ∧ (logRun rd env cfg dyn steps).2 = run env cfg dyn steps' := by
  have h : ∃ steps', ReadsAll rd steps steps' := by
    induction steps with
    | nil => exact ⟨[], .nil⟩
    | cons st rest ih =>
      obtain ⟨rest', hr⟩ := ih
      cases st with
      | message m cuts =>
        obtain ⟨m', hm⟩ := reads_total rd m
        exact ⟨.message m' cuts :: rest', .cons (.message m m' cuts hm) hr⟩
      | disconnect => exact ⟨_, .cons .disconnect hr⟩
      | tasks cuts => exact ⟨_, .cons (.tasks cuts) hr⟩
      | finish i => exact ⟨_, .cons (.finish i) hr⟩
      | deliver i => exact ⟨_, .cons (.deliver i) hr⟩
  obtain ⟨steps', h⟩ := h
  exact ⟨steps', h, logFrom_state h _⟩

/-! ### What the log depends on -/

/-- What decides about the records: the open documents and whether the server is shut down. -/
def Kept (s t : State) : Prop := t.memDocs.docs = s.memDocs.docs ∧ t.shutdownRequested = s.shutdownRequested

theorem processChanges_docs {env cuts} {s t : State} {b : Bool} (h : s.processChanges env cuts = some (t, b)) :
    t.memDocs = s.memDocs := by
  unfold State.processChanges at h
  simp only at h
  (repeat' split at h) <;> first
    | cases h; done
    | (simp only [Option.some.injEq, Prod.mk.injEq] at h
       obtain ⟨rfl, _⟩ := h
       rfl)

theorem afterEvent_kept {env cuts} {s t : State} (h : s.afterEvent env cuts = some t) : Kept s t := by
  refine ⟨?_, (afterEvent_calm h).1.down⟩
  unfold State.afterEvent at h
  split at h
  · cases h
  · rename_i s1 b hp
    have h1 := processChanges_docs hp
    simp only at h
    split at h
    · cases h
    · rename_i s2 hu
      have h2 : s2.memDocs.docs = s.memDocs.docs := by
        split at hu
        · obtain ⟨subs, rfl⟩ := updateDiagnostics_calm hu
          simp [h1]
        · cases hu; simp [h1]
      unfold State.publishAll at h
      split at h
      · cases h; exact h2
      · obtain ⟨new, rfl, _⟩ := publishFold_calm h
        exact h2

theorem respond_kept (s : State) (id : RequestId) (r : Reply) : Kept s (s.respond id r) := by
  unfold State.respond
  split <;> exact ⟨rfl, rfl⟩

theorem cancel_kept (s : State) (id : RequestId) : Kept s (s.cancel id) := by
  unfold State.cancel
  split <;> exact ⟨rfl, rfl⟩

theorem tasks_kept (l : List Task) (s : State) : Kept s (l.foldl State.onTask s) := by
  induction l generalizing s with
  | nil => exact ⟨rfl, rfl⟩
  | cons t l ih =>
    rw [List.foldl_cons]
    have h1 : Kept s (s.onTask t) := by
      cases t with
      | response id r => exact respond_kept s id r
      | diagnostics d => exact ⟨rfl, rfl⟩
    exact ⟨(ih _).1.trans h1.1, (ih _).2.trans h1.2⟩

theorem pool_kept {env : Env} {s t : State} {st : Step} (h : step env s st = .running t)
    (hst : (∃ cuts, st = .tasks cuts) ∨ (∃ i, st = .finish i) ∨ ∃ i, st = .deliver i) : Kept s t := by
  rcases hst with ⟨cuts, rfl⟩ | ⟨i, rfl⟩ | ⟨i, rfl⟩
  · simp only [step] at h
    split at h
    · cases h; exact ⟨rfl, rfl⟩
    · split at h
      · cases h
      · rename_i u hu
        cases h
        have h1 := tasks_kept s.channel { s with channel := [] }
        have h2 := afterEvent_kept hu
        exact ⟨h2.1.trans h1.1, h2.2.trans h1.2⟩
  · simp only [step] at h
    cases h
    unfold State.finishJob
    (repeat' split) <;> exact ⟨rfl, rfl⟩
  · simp only [step] at h
    cases h
    unfold State.deliverJob
    (repeat' split) <;> exact ⟨rfl, rfl⟩

/-- The records of a step are decided by this. -/
theorem log_kept (rd : Reader J) (env : Env) {s t : State} (h : Kept s t) (st : RawStep J) :
    (logStep rd env t st).1 = (logStep rd env s st).1 := by
  cases st with
  | message m cuts =>
    simp only [logStep]
    split
    · rfl
    · cases m with
      | request id method params => simp [handle, onRequest, h.2]
      | response id => rfl
      | notification method params =>
        simp only [handle, onNotification_eq, handled]
        (repeat' split) <;> simp_all [openLogged, changeLogged, closeLogged, h.1]
  | disconnect => rfl
  | tasks cuts => rfl
  | finish i => rfl
  | deliver i => rfl

/-! ### Open documents -/

/-- The state is one after the steps, as far as the log is concerned. -/
structure After (rd : Reader J) (steps : List (RawStep J)) (s : State) : Prop where
  docs : ∀ p, (s.memDocs.docs.get (.pathBuf p)).isSome = true ↔ OpenAfter rd steps p
  down : s.shutdownRequested = true ↔ ShutDown rd steps

theorem openAfter_snoc (rd : Reader J) (steps : List (RawStep J)) (st : RawStep J) (p : Bytes) :
    OpenAfter rd (steps ++ [st]) p ↔ Opens rd p st ∨ (OpenAfter rd steps p ∧ ¬ Closes rd p st) := by
  constructor
  · rintro ⟨pre, x, post, e, ho, hc⟩
    rcases List.eq_nil_or_concat post with rfl | ⟨post', y, rfl⟩
    · obtain ⟨_, e2⟩ := List.append_inj' e rfl
      cases e2
      exact .inl ho
    · have e' : steps ++ [st] = (pre ++ x :: post') ++ [y] := by simpa using e
      obtain ⟨e1, e2⟩ := List.append_inj' e' rfl
      cases e2
      exact .inr ⟨⟨pre, x, post', e1, ho, fun z hz => hc z (by simp [hz])⟩, hc st (by simp)⟩
  · rintro (h | ⟨⟨pre, x, post, rfl, ho, hc⟩, h⟩)
    · exact ⟨steps, st, [], rfl, h, by simp⟩
    · refine ⟨pre, x, post ++ [st], by simp, ho, fun z hz => ?_⟩
      rcases List.mem_append.1 hz with hz | hz
      · exact hc z hz
      · simp at hz; subst hz; exact h

theorem shutDown_snoc (rd : Reader J) (steps : List (RawStep J)) (st : RawStep J) :
    ShutDown rd (steps ++ [st]) ↔ ShutDown rd steps ∨
      ∃ id params cuts, st = .message (.request id shutdownMethod params) cuts ∧ rd.shutdown params = true := by
  unfold ShutDown
  constructor
  · rintro ⟨id, params, cuts, hm, hr⟩
    rcases List.mem_append.1 hm with hm | hm
    · exact .inl ⟨id, params, cuts, hm, hr⟩
    · simp at hm; exact .inr ⟨id, params, cuts, hm.symm, hr⟩
  · rintro (⟨id, params, cuts, hm, hr⟩ | ⟨id, params, cuts, rfl, hr⟩)
    · exact ⟨id, params, cuts, by simp [hm], hr⟩
    · exact ⟨id, params, cuts, by simp, hr⟩

theorem after_start (rd : Reader J) (cfg : SourceRootConfig) (dyn : Bool) : After rd [] (State.init cfg dyn) := by
  refine ⟨fun p => ⟨fun h => (by cases h), ?_⟩, ⟨fun h => (by cases h), ?_⟩⟩
  · rintro ⟨pre, _, _, e, _⟩
    cases pre <;> cases e
  · rintro ⟨_, _, _, h, _⟩
    cases h

/-- A step that neither opens, closes nor shuts down. -/
theorem after_same {rd : Reader J} {steps : List (RawStep J)} {s t : State} {st : RawStep J} (h : After rd steps s)
    (hk : Kept s t) (h1 : ∀ p, ¬ Opens rd p st) (h2 : ∀ p, ¬ Closes rd p st)
    (h3 : ¬ ∃ id params cuts, st = .message (.request id shutdownMethod params) cuts ∧ rd.shutdown params = true) :
    After rd (steps ++ [st]) t := by
  refine ⟨fun p => ?_, ?_⟩
  · rw [openAfter_snoc, hk.1, h.docs]
    simp [h1, h2]
  · rw [shutDown_snoc, hk.2, h.down]
    simp only [h3, or_false]

theorem opens_method {rd : Reader J} {p : Bytes} {m : Raw J} {cuts : Nat → Nat} (h : Opens rd p (.message m cuts)) :
    ∃ params v t, m = .notification openMethod params ∧ rd.didOpen params = some (some p, v, t) := by
  obtain ⟨params, _, v, t, e, hr⟩ := h
  cases e
  exact ⟨params, v, t, rfl, hr⟩

theorem closes_method {rd : Reader J} {p : Bytes} {m : Raw J} {cuts : Nat → Nat} (h : Closes rd p (.message m cuts)) :
    ∃ params, m = .notification closeMethod params ∧ rd.didClose params = some (some p) := by
  obtain ⟨params, _, e, hr⟩ := h
  cases e
  exact ⟨params, rfl, hr⟩

theorem didOpen_docs {s t : State} {u : Option Bytes} {v : Int} {text : Text} (h : s.didOpen u v text = some t) :
    t.shutdownRequested = s.shutdownRequested ∧
    ∀ p, (t.memDocs.docs.get (.pathBuf p)).isSome = true ↔ (u = some p ∨ (s.memDocs.docs.get (.pathBuf p)).isSome = true) := by
  unfold State.didOpen at h
  split at h
  · cases h; simp
  · rename_i b
    simp only at h
    split at h
    · cases h
    · cases h
      refine ⟨rfl, fun p => ?_⟩
      simp only [MemDocs.insert, AMap.get_insert]
      by_cases hp : b = p
      · subst hp; simp
      · simp [hp]

theorem didChange_docs {s t : State} {u : Option Bytes} {v : Int} {cs : List Edits.Change} (h : s.didChange u v cs = some t) :
    t.shutdownRequested = s.shutdownRequested ∧
    ∀ p, (t.memDocs.docs.get (.pathBuf p)).isSome = true ↔ (s.memDocs.docs.get (.pathBuf p)).isSome = true := by
  unfold State.didChange at h
  split at h
  · cases h; simp
  · rename_i b
    simp only at h
    split at h
    · cases h; simp
    · rename_i old ho
      (repeat' split at h) <;> first
        | cases h; done
        | (cases h
           refine ⟨rfl, fun p => ?_⟩
           simp only [AMap.get_insert]
           split
           · rename_i e; rw [← e, ho]; simp
           · exact Iff.rfl)

theorem didClose_docs (s : State) (u : Option Bytes) :
    (s.didClose u).shutdownRequested = s.shutdownRequested ∧
    ∀ p, ((s.didClose u).memDocs.docs.get (.pathBuf p)).isSome = true ↔
      ((s.memDocs.docs.get (.pathBuf p)).isSome = true ∧ u ≠ some p) := by
  unfold State.didClose
  split
  · simp
  · rename_i b
    refine ⟨rfl, fun p => ?_⟩
    simp only [MemDocs.remove, AMap.get_erase]
    by_cases hp : b = p
    · subst hp; simp
    · simp [hp]

theorem onRequest_kept (s : State) (id : RequestId) (m : Option Bool) :
    (s.onRequest id m).memDocs = s.memDocs ∧
    ((s.onRequest id m).shutdownRequested = true ↔ (s.shutdownRequested = true ∨ m = some true)) := by
  have key : ∀ (s : State) (r : Reply), (s.respond id r).memDocs = s.memDocs ∧
      (s.respond id r).shutdownRequested = s.shutdownRequested := by
    intro s r
    unfold State.respond
    split <;> exact ⟨rfl, rfl⟩
  unfold State.onRequest
  simp only
  split
  · rename_i h
    refine ⟨(key _ _).1, ?_⟩
    rw [(key _ _).2]
    exact ⟨fun h => .inl h, fun _ => h⟩
  · rename_i h
    split
    · refine ⟨(key _ _).1, ?_⟩
      rw [(key _ _).2]
      simp
    · refine ⟨(key _ _).1, ?_⟩
      rw [(key _ _).2]
      simp [State.registerRequest]
    · refine ⟨(key _ _).1, ?_⟩
      rw [(key _ _).2]
      simp [State.registerRequest]

theorem completeRequest_kept {s t : State} {id : Nat} (h : s.completeRequest id = some t) : Kept s t := by
  unfold State.completeRequest at h
  split at h <;> cases h
  exact ⟨rfl, rfl⟩

theorem after_step {rd : Reader J} {env : Env} {steps : List (RawStep J)} {s t : State} {st : RawStep J}
    (h : After rd steps s) (hst : (logStep rd env s st).2 = .running t) : After rd (steps ++ [st]) t := by
  have quiet : ∀ {t : State} {st : RawStep J}, Kept s t → (∀ m cuts, st ≠ .message m cuts) → After rd (steps ++ [st]) t := by
    intro t st hk hn
    refine after_same h hk ?_ ?_ ?_
    · rintro p ⟨_, _, _, _, e, _⟩; exact hn _ _ e
    · rintro p ⟨_, _, e, _⟩; exact hn _ _ e
    · rintro ⟨_, _, _, e, _⟩; exact hn _ _ e
  cases st with
  | disconnect => cases hst
  | tasks cuts => exact quiet (pool_kept (env := env) (st := .tasks cuts) hst (.inl ⟨_, rfl⟩)) (by simp)
  | finish i => exact quiet (pool_kept (env := env) (st := .finish i) hst (.inr (.inl ⟨_, rfl⟩))) (by simp)
  | deliver i => exact quiet (pool_kept (env := env) (st := .deliver i) hst (.inr (.inr ⟨_, rfl⟩))) (by simp)
  | message m cuts =>
    simp only [logStep] at hst
    split at hst
    · cases hst
    · cases hh : (handle rd s m).state with
      | none => rw [hh] at hst; cases hst
      | some u =>
        rw [hh] at hst
        simp only [Option.bind_some] at hst
        cases ha : State.afterEvent env cuts u with
        | none => rw [ha] at hst; cases hst
        | some t' =>
          rw [ha] at hst
          cases hst
          have hk := afterEvent_kept ha
          -- what the message does to the documents decides
          have finish : (∀ p, (u.memDocs.docs.get (.pathBuf p)).isSome = true ↔ OpenAfter rd (steps ++ [.message m cuts]) p) →
              (u.shutdownRequested = true ↔ ShutDown rd (steps ++ [.message m cuts])) →
              After rd (steps ++ [.message m cuts]) t := fun h1 h2 => ⟨by rw [hk.1]; exact h1, by rw [hk.2]; exact h2⟩
          cases m with
          | response id =>
            have h1 := completeRequest_kept (id := id) hh
            exact after_same h ⟨hk.1.trans h1.1, hk.2.trans h1.2⟩ (fun p hp => by
              obtain ⟨_, _, _, e, _⟩ := opens_method hp; cases e) (fun p hp => by
              obtain ⟨_, e, _⟩ := closes_method hp; cases e) (by rintro ⟨_, _, _, e, _⟩; cases e)
          | request id method params =>
            simp only [handle, onRequest, Option.some.injEq] at hh
            subst hh
            have h1 := onRequest_kept s id (if method = shutdownMethod then some (rd.shutdown params) else none)
            refine finish (fun p => ?_) ?_
            · rw [h1.1, h.docs, openAfter_snoc]
              constructor
              · exact fun ho => .inr ⟨ho, fun hc => by obtain ⟨_, e, _⟩ := closes_method hc; cases e⟩
              · rintro (ho | ho)
                · obtain ⟨_, _, _, e, _⟩ := opens_method ho; cases e
                · exact ho.1
            · rw [h1.2, h.down, shutDown_snoc]
              constructor
              · rintro (hd | hd)
                · exact .inl hd
                · split at hd
                  · rename_i e
                    subst e
                    exact .inr ⟨id, params, cuts, rfl, by simpa using hd⟩
                  · cases hd
              · rintro (hd | ⟨_, _, _, e, hr⟩)
                · exact .inl hd
                · cases e
                  exact .inr (by simp [hr])
          | notification method params =>
            have hdown : u.shutdownRequested = s.shutdownRequested →
                (u.shutdownRequested = true ↔ ShutDown rd (steps ++ [.message (.notification method params) cuts])) := by
              intro e
              rw [e, h.down, shutDown_snoc]
              constructor
              · exact .inl
              · rintro (hd | ⟨_, _, _, e, _⟩)
                · exact hd
                · cases e
            simp only [handle, onNotification_eq] at hh
            by_cases h3 : method = openMethod
            · subst h3
              simp only [open_ne, if_false, if_true, handled] at hh
              cases hr : rd.didOpen params with
              | none => rw [hr] at hh; cases hh
              | some q =>
                rw [hr] at hh
                obtain ⟨d1, d2⟩ := didOpen_docs (show s.didOpen q.1 q.2.1 q.2.2 = some u from hh)
                refine finish (fun p => ?_) (hdown d1)
                rw [d2, h.docs, openAfter_snoc]
                constructor
                · rintro (e | ho)
                  · exact .inl ⟨params, cuts, q.2.1, q.2.2, rfl, by rw [hr, ← e]⟩
                  · exact .inr ⟨ho, fun hc => by
                      obtain ⟨_, e, _⟩ := closes_method hc
                      injection e with e1 _
                      exact close_ne.2.2.2.1 e1.symm⟩
                · rintro (ho | ho)
                  · obtain ⟨_, v, t, e, hr'⟩ := opens_method ho
                    cases e
                    rw [hr] at hr'
                    cases hr'
                    exact .inl rfl
                  · exact .inr ho.1
            · have hno : ∀ p, ¬ Opens rd p (.message (.notification method params) cuts) := by
                intro p ho
                obtain ⟨_, _, _, e, _⟩ := opens_method ho
                cases e
                exact h3 rfl
              by_cases h5 : method = closeMethod
              · subst h5
                simp only [close_ne, if_false, if_true, handled] at hh
                cases hr : rd.didClose params with
                | none => rw [hr] at hh; cases hh
                | some q =>
                  rw [hr] at hh
                  have hu : s.didClose q = u := by simpa [closeLogged] using hh
                  subst hu
                  obtain ⟨d1, d2⟩ := didClose_docs s q
                  refine finish (fun p => ?_) (hdown d1)
                  rw [d2, h.docs, openAfter_snoc]
                  constructor
                  · rintro ⟨ho, hq⟩
                    refine .inr ⟨ho, fun hc => ?_⟩
                    obtain ⟨_, e, hr'⟩ := closes_method hc
                    cases e
                    rw [hr] at hr'
                    cases hr'
                    exact hq rfl
                  · rintro (ho | ho)
                    · exact absurd ho (hno p)
                    · exact ⟨ho.1, fun e => ho.2 ⟨params, cuts, rfl, by rw [hr, e]⟩⟩
              · have hnc : ∀ p, ¬ Closes rd p (.message (.notification method params) cuts) := by
                  intro p hc
                  obtain ⟨_, e, _⟩ := closes_method hc
                  cases e
                  exact h5 rfl
                have hsame : (∀ p, (u.memDocs.docs.get (.pathBuf p)).isSome = true ↔
                    (s.memDocs.docs.get (.pathBuf p)).isSome = true) → u.shutdownRequested = s.shutdownRequested →
                    After rd (steps ++ [.message (.notification method params) cuts]) t := by
                  intro e1 e2
                  refine finish (fun p => ?_) (hdown e2)
                  rw [e1, h.docs, openAfter_snoc]
                  simp [hno, hnc]
                rw [if_neg h3, if_neg h5] at hh
                by_cases h4 : method = changeMethod
                · subst h4
                  simp only [change_ne, if_false, if_true, handled] at hh
                  cases hr : rd.didChange params with
                  | none => rw [hr] at hh; cases hh
                  | some q =>
                    rw [hr] at hh
                    obtain ⟨d1, d2⟩ := didChange_docs (show s.didChange q.1 q.2.1 q.2.2 = some u from hh)
                    exact hsame d2 d1
                · rw [if_neg h4] at hh
                  split at hh
                  · unfold handled at hh
                    split at hh
                    · cases hh
                    · cases hh
                      have := cancel_kept s (by assumption)
                      exact hsame (fun p => by rw [this.1]) this.2
                  · split at hh
                    · unfold handled at hh
                      split at hh <;> cases hh
                      exact hsame (fun _ => Iff.rfl) rfl
                    · cases hh
                      exact hsame (fun _ => Iff.rfl) rfl

/-! ### The records -/

theorem step_log {rd : Reader J} {env : Env} {pre : List (RawStep J)} {s : State} (h : After rd pre s) (st : RawStep J)
    (e : Entry J) : e ∈ (logStep rd env s st).1 ↔ Objection rd pre st e := by
  cases st with
  | disconnect => exact ⟨fun h => (by cases h), fun h => (by cases h)⟩
  | tasks cuts => exact ⟨fun h => (by cases h), fun h => (by cases h)⟩
  | finish i => exact ⟨fun h => (by cases h), fun h => (by cases h)⟩
  | deliver i => exact ⟨fun h => (by cases h), fun h => (by cases h)⟩
  | message m cuts =>
    cases m with
    | response id => exact ⟨fun h => (by cases h), fun h => (by cases h)⟩
    | request id method params =>
      simp only [logStep, Raw.isExit, Bool.false_eq_true, if_false, handle, onRequest]
      by_cases hm : method = shutdownMethod
      · subst hm
        simp only [decide_true, Bool.or_true, if_true, List.not_mem_nil, false_iff]
        rintro h
        cases h with
        | unknownRequest _ _ _ _ hn _ => exact hn rfl
      · by_cases hd : s.shutdownRequested = true
        · simp only [hd, Bool.true_or, if_true, List.not_mem_nil, false_iff]
          intro hq
          cases hq with
          | unknownRequest _ _ _ _ _ hn => exact hn (h.down.1 hd)
        · simp only [hd, hm, decide_false, Bool.or_self, Bool.false_eq_true, if_false, List.mem_singleton]
          constructor
          · rintro rfl
            exact .unknownRequest id method params cuts hm fun hs => hd (h.down.2 hs)
          · intro hq
            cases hq
            rfl
    | notification method params =>
      simp only [logStep, Raw.isExit, decide_eq_true_eq]
      by_cases h0 : method = exitMethod
      · subst h0
        simp only [if_true, List.not_mem_nil, false_iff]
        intro hq
        generalize hx : exitMethod = x at hq
        cases hq with
        | duplicateOpen => exact open_ne.1 hx.symm
        | unexpectedChange => exact change_ne.1 hx.symm
        | orphanClose => exact close_ne.1 hx.symm
        | unhandledNotification _ _ _ hn _ => exact hn (by simp [Understood, ← hx])
      simp only [h0, if_false, handle, onNotification_eq]
      by_cases h3 : method = openMethod
      · subst h3
        simp only [open_ne, if_false, if_true, handled]
        have only : ∀ {e}, Objection rd pre (.message (.notification openMethod params) cuts) e →
            ∃ p v t, rd.didOpen params = some (some p, v, t) ∧ OpenAfter rd pre p ∧ e = .duplicateOpen p := by
          intro e hq
          generalize hx : openMethod = x at hq
          cases hq with
          | duplicateOpen _ _ p v t h1 h2 => exact ⟨p, v, t, h1, h2, rfl⟩
          | unexpectedChange => exact absurd hx.symm change_ne.2.2.2
          | orphanClose => exact absurd hx.symm close_ne.2.2.2.1
          | unhandledNotification _ _ _ hn _ => exact absurd (by simp [Understood, ← hx]) hn
        cases hr : rd.didOpen params with
        | none =>
          simp only [List.not_mem_nil, false_iff]
          intro hq
          obtain ⟨_, _, _, h1, _⟩ := only hq
          rw [hr] at h1; cases h1
        | some q =>
          obtain ⟨u, v, t⟩ := q
          cases u with
          | none =>
            simp only [openLogged, List.not_mem_nil, false_iff]
            intro hq
            obtain ⟨_, _, _, h1, _⟩ := only hq
            rw [hr] at h1; cases h1
          | some p =>
            simp only [openLogged]
            by_cases ho : (s.memDocs.docs.get (.pathBuf p)).isSome = true
            · rw [if_pos ho, List.mem_singleton]
              constructor
              · rintro rfl
                exact .duplicateOpen params cuts p v t hr ((h.docs p).1 ho)
              · intro hq
                obtain ⟨p', _, _, h1, _, h2⟩ := only hq
                rw [hr] at h1; cases h1
                exact h2
            · rw [if_neg ho]
              simp only [List.not_mem_nil, false_iff]
              intro hq
              obtain ⟨p', _, _, h1, h2, _⟩ := only hq
              rw [hr] at h1; cases h1
              exact ho ((h.docs p).2 h2)
      by_cases h4 : method = changeMethod
      · subst h4
        simp only [change_ne, if_false, if_true, handled]
        have only : ∀ {e}, Objection rd pre (.message (.notification changeMethod params) cuts) e →
            ∃ p v t, rd.didChange params = some (some p, v, t) ∧ ¬ OpenAfter rd pre p ∧ e = .unexpectedChange p := by
          intro e hq
          generalize hx : changeMethod = x at hq
          cases hq with
          | unexpectedChange _ _ p v t h1 h2 => exact ⟨p, v, t, h1, h2, rfl⟩
          | duplicateOpen => exact absurd hx change_ne.2.2.2
          | orphanClose => exact absurd hx.symm close_ne.2.2.2.2
          | unhandledNotification _ _ _ hn _ => exact absurd (by simp [Understood, ← hx]) hn
        cases hr : rd.didChange params with
        | none =>
          simp only [List.not_mem_nil, false_iff]
          intro hq
          obtain ⟨_, _, _, h1, _⟩ := only hq
          rw [hr] at h1; cases h1
        | some q =>
          obtain ⟨u, v, t⟩ := q
          cases u with
          | none =>
            simp only [changeLogged, List.not_mem_nil, false_iff]
            intro hq
            obtain ⟨_, _, _, h1, _⟩ := only hq
            rw [hr] at h1; cases h1
          | some p =>
            simp only [changeLogged]
            by_cases ho : (s.memDocs.docs.get (.pathBuf p)).isSome = true
            · rw [if_pos ho]
              simp only [List.not_mem_nil, false_iff]
              intro hq
              obtain ⟨p', _, _, h1, h2, _⟩ := only hq
              rw [hr] at h1; cases h1
              exact h2 ((h.docs p).1 ho)
            · rw [if_neg ho, List.mem_singleton]
              constructor
              · rintro rfl
                exact .unexpectedChange params cuts p v t hr fun hp => ho ((h.docs p).2 hp)
              · intro hq
                obtain ⟨p', _, _, h1, _, h2⟩ := only hq
                rw [hr] at h1; cases h1
                exact h2
      by_cases h5 : method = closeMethod
      · subst h5
        simp only [close_ne, if_false, if_true, handled]
        have only : ∀ {e}, Objection rd pre (.message (.notification closeMethod params) cuts) e →
            ∃ p, rd.didClose params = some (some p) ∧ ¬ OpenAfter rd pre p ∧ e = .orphanClose p := by
          intro e hq
          generalize hx : closeMethod = x at hq
          cases hq with
          | orphanClose _ _ p h1 h2 => exact ⟨p, h1, h2, rfl⟩
          | duplicateOpen => exact absurd hx close_ne.2.2.2.1
          | unexpectedChange => exact absurd hx close_ne.2.2.2.2
          | unhandledNotification _ _ _ hn _ => exact absurd (by simp [Understood, ← hx]) hn
        cases hr : rd.didClose params with
        | none =>
          simp only [List.not_mem_nil, false_iff]
          intro hq
          obtain ⟨_, h1, _⟩ := only hq
          rw [hr] at h1; cases h1
        | some u =>
          cases u with
          | none =>
            simp only [closeLogged, List.not_mem_nil, false_iff]
            intro hq
            obtain ⟨_, h1, _⟩ := only hq
            rw [hr] at h1; cases h1
          | some p =>
            simp only [closeLogged]
            by_cases ho : (s.memDocs.docs.get (.pathBuf p)).isSome = true
            · rw [if_pos ho]
              simp only [List.not_mem_nil, false_iff]
              intro hq
              obtain ⟨p', h1, h2, _⟩ := only hq
              rw [hr] at h1; cases h1
              exact h2 ((h.docs p).1 ho)
            · rw [if_neg ho, List.mem_singleton]
              constructor
              · rintro rfl
                exact .orphanClose params cuts p hr fun hp => ho ((h.docs p).2 hp)
              · intro hq
                obtain ⟨p', h1, _, h2⟩ := only hq
                rw [hr] at h1; cases h1
                exact h2
      have only : ∀ {e}, Objection rd pre (.message (.notification method params) cuts) e →
          ¬ Understood method ∧ ¬ "$/".toList <+: method ∧ e = .unhandledNotification method params := by
        intro e hq
        cases hq with
        | duplicateOpen => exact absurd rfl h3
        | unexpectedChange => exact absurd rfl h4
        | orphanClose => exact absurd rfl h5
        | unhandledNotification _ _ _ hn hp => exact ⟨hn, hp, rfl⟩
      rw [if_neg h3, if_neg h4, if_neg h5]
      by_cases h1 : method = cancelMethod
      · rw [if_pos h1]
        have hl : (handled rd.cancel (fun s id => (⟨[], some (s.cancel id)⟩ : Handled J)) s params).log = [] := by
          unfold handled
          split <;> rfl
        rw [hl]
        simp only [List.not_mem_nil, false_iff]
        intro hq
        exact (only hq).1 (by simp [Understood, h1])
      by_cases h2 : method = progressCancelMethod
      · rw [if_neg h1, if_pos h2]
        have hl : (handled rd.progressCancel (fun s _ => (⟨[], some s⟩ : Handled J)) s params).log = [] := by
          unfold handled
          split <;> rfl
        rw [hl]
        simp only [List.not_mem_nil, false_iff]
        intro hq
        exact (only hq).1 (by simp [Understood, h2])
      rw [if_neg h1, if_neg h2]
      have hu : ¬ Understood method := by simp [Understood, h0, h1, h2, h3, h4, h5]
      by_cases hp : "$/".toList <+: method
      · rw [if_pos (List.isPrefixOf_iff_prefix.2 hp)]
        simp only [List.not_mem_nil, false_iff]
        intro hq
        exact (only hq).2.1 hp
      · rw [if_neg (fun h => hp (List.isPrefixOf_iff_prefix.1 h)), List.mem_singleton]
        constructor
        · rintro rfl
          exact .unhandledNotification method params cuts hu hp
        · exact fun hq => (only hq).2.2

theorem step_log_short (rd : Reader J) (env : Env) (s : State) (st : RawStep J) : (logStep rd env s st).1.length ≤ 1 := by
  cases st with
  | message m cuts =>
    simp only [logStep]
    split
    · simp
    · cases m with
      | response id => simp [handle]
      | request id method params =>
        simp only [handle, onRequest]
        split <;> simp
      | notification method params =>
        simp only [handle, onNotification_eq, handled, openLogged, changeLogged, closeLogged]
        (repeat' split) <;> simp
  | disconnect => simp [logStep]
  | tasks cuts => simp [logStep]
  | finish i => simp [logStep]
  | deliver i => simp [logStep]

theorem objections_one {rd : Reader J} {env : Env} {pre rest : List (RawStep J)} {s : State} (h : After rd pre s)
    (st : RawStep J) {log : List (Entry J)} (hr : Objections rd (pre ++ [st]) rest log) :
    Objections rd pre (st :: rest) ((logStep rd env s st).1 ++ log) := by
  have hl := step_log (env := env) h st
  have hs := step_log_short rd env s st
  generalize (logStep rd env s st).1 = l at hl hs
  match l, hs with
  | [], _ => exact .fine (fun e ho => by cases (hl e).2 ho) hr
  | [e], _ => exact .objection ((hl e).1 (by simp)) hr

theorem logFrom_log {rd : Reader J} {env : Env} (steps : List (RawStep J)) : ∀ (pre : List (RawStep J)) (s : State),
    After rd pre s →
    (∃ k, Objections rd pre (steps.take k) (logFrom rd env s steps).1) ∧
    ∀ t, (logFrom rd env s steps).2 = .running t → Objections rd pre steps (logFrom rd env s steps).1 := by
  induction steps with
  | nil =>
    intro pre s h
    exact ⟨⟨0, .nil pre⟩, fun t _ => .nil pre⟩
  | cons st rest ih =>
    intro pre s h
    have hl := fun rest log => objections_one (env := env) (rest := rest) (log := log) h st
    have ha := fun t => after_step (env := env) (t := t) (st := st) h
    unfold logFrom
    generalize logStep rd env s st = r at hl ha
    rcases r with ⟨log, o⟩
    have first : ∃ k, Objections rd pre ((st :: rest).take k) log :=
      ⟨1, by simpa using hl [] [] (.nil _)⟩
    cases o with
    | running u =>
      obtain ⟨⟨k, i1⟩, i2⟩ := ih (pre ++ [st]) u (ha u rfl)
      exact ⟨⟨k + 1, hl _ _ i1⟩, fun t ht => hl _ _ (i2 t ht)⟩
    | exited u => exact ⟨first, fun t ht => (by cases ht)⟩
    | failed u => exact ⟨first, fun t ht => (by cases ht)⟩
    | panicked => exact ⟨first, fun t ht => (by cases ht)⟩

/-- **C119.**  The errors in the log are the objections there are to the messages, one for each, in their order:
documents opened twice, documents changed or closed without being open, unknown requests (before the server is shut
down) and unknown notifications. -/
theorem log_is_the_objections (rd : Reader J) (env : Env) (cfg : SourceRootConfig) (dyn : Bool) (steps : List (RawStep J))
    (s : State) (hrun : (logRun rd env cfg dyn steps).2 = .running s) :
    Objections rd [] steps (logRun rd env cfg dyn steps).1 :=
  (logFrom_log steps [] _ (after_start rd cfg dyn)).2 s hrun

/-- **C119.**  However a run ends, the errors are the objections to the messages so far. -/
theorem log_is_the_objections_so_far (rd : Reader J) (env : Env) (cfg : SourceRootConfig) (dyn : Bool)
    (steps : List (RawStep J)) : ∃ k, Objections rd [] (steps.take k) (logRun rd env cfg dyn steps).1 :=
  (logFrom_log steps [] _ (after_start rd cfg dyn)).1

theorem objections_mem {rd : Reader J} {pre steps : List (RawStep J)} {log : List (Entry J)}
    (h : Objections rd pre steps log) {e : Entry J} (he : e ∈ log) :
    ∃ a st b, steps = a ++ st :: b ∧ Objection rd (pre ++ a) st e := by
  induction h with
  | nil => cases he
  | @objection pre st rest e' log ho _ ih =>
    rcases List.mem_cons.1 he with rfl | he
    · exact ⟨[], st, rest, rfl, by simpa using ho⟩
    · obtain ⟨a, x, b, rfl, hx⟩ := ih he
      exact ⟨st :: a, x, b, rfl, by simpa using hx⟩
  | @fine pre st rest log _ _ ih =>
    obtain ⟨a, x, b, rfl, hx⟩ := ih he
    exact ⟨st :: a, x, b, rfl, by simpa using hx⟩

theorem objections_nil {rd : Reader J} {pre steps : List (RawStep J)} (h : Objections rd pre steps []) :
    ∀ a st b e, steps = a ++ st :: b → ¬ Objection rd (pre ++ a) st e := by
  generalize hl : ([] : List (Entry J)) = l at h
  induction h with
  | nil => intro a st b e h; cases a <;> cases h
  | objection _ _ _ => cases hl
  | @fine pre st rest log hn _ ih =>
    intro a x b e h ho
    cases a with
    | nil => cases h; exact hn e (by simpa using ho)
    | cons y a => cases h; exact ih hl a x b e rfl (by simpa using ho)

/-- **C119.**  A client to whose messages there is no objection finds no error in the log. -/
theorem orderly_log_is_empty (rd : Reader J) (env : Env) (cfg : SourceRootConfig) (dyn : Bool)
    (steps : List (RawStep J)) (h : ∀ a st b e, steps = a ++ st :: b → ¬ Objection rd a st e) :
    (logRun rd env cfg dyn steps).1 = [] := by
  obtain ⟨k, hk⟩ := log_is_the_objections_so_far rd env cfg dyn steps
  refine List.eq_nil_iff_forall_not_mem.2 fun e he => ?_
  obtain ⟨a, st, b, hab, ho⟩ := objections_mem hk he
  refine h a st (b ++ steps.drop k) e ?_ (by simpa using ho)
  rw [← List.cons_append, ← List.append_assoc, ← hab, List.take_append_drop]

/-- **C119, violated.**  The server asks the client to report the saving of documents, and takes every report for an
error. -/
theorem saving_is_logged_as_error (rd : Reader J) (env : Env) (s : State) (params : J) (cuts : Nat → Nat) :
    (logStep rd env s (.message (.notification saveMethod params) cuts)).1 =
      [.unhandledNotification saveMethod params] := by
  have h : saveMethod ≠ exitMethod ∧ saveMethod ≠ cancelMethod ∧ saveMethod ≠ progressCancelMethod ∧
    saveMethod ≠ openMethod ∧ saveMethod ≠ changeMethod ∧ saveMethod ≠ closeMethod := by decide +kernel
  simp [logStep, Raw.isExit, handle, onNotification_eq, h]
  decide +kernel

/-! ### The texts of documents -/

theorem same_symm {rd : Reader J} {st st' : RawStep J} (h : SameButTexts rd st st') : SameButTexts rd st' st := by
  cases h with
  | same => exact .same st
  | openings p p' cuts u v t t' h h' => exact .openings p' p cuts u v t' t h' h
  | changes p p' cuts u v t t' h h' => exact .changes p' p cuts u v t' t h' h

theorem allSame_symm {rd : Reader J} {l l' : List (RawStep J)} (h : AllSameButTexts rd l l') : AllSameButTexts rd l' l := by
  induction h with
  | nil => exact .nil
  | cons h _ ih => exact .cons (same_symm h) ih

theorem allSame_snoc {rd : Reader J} {l l' : List (RawStep J)} {st st' : RawStep J} (h : AllSameButTexts rd l l')
    (hs : SameButTexts rd st st') : AllSameButTexts rd (l ++ [st]) (l' ++ [st']) := by
  induction h with
  | nil => exact .cons hs .nil
  | cons h _ ih => exact .cons h ih

theorem allSame_split {rd : Reader J} {l' : List (RawStep J)} (a : List (RawStep J)) : ∀ {l : List (RawStep J)} {st : RawStep J}
    {b : List (RawStep J)}, AllSameButTexts rd l l' → l = a ++ st :: b →
    ∃ a' st' b', l' = a' ++ st' :: b' ∧ SameButTexts rd st st' ∧ AllSameButTexts rd b b' := by
  induction a generalizing l' with
  | nil =>
    intro l st b h e
    cases h with
    | nil => cases e
    | cons h hr => cases e; exact ⟨[], _, _, rfl, h, hr⟩
  | cons x a ih =>
    intro l st b h e
    cases h with
    | nil => cases e
    | cons h hr =>
      cases e
      obtain ⟨a', st', b', rfl, h1, h2⟩ := ih hr rfl
      exact ⟨_ :: a', st', b', rfl, h1, h2⟩

theorem allSame_mem {rd : Reader J} {l l' : List (RawStep J)} (h : AllSameButTexts rd l l') {x : RawStep J} (hx : x ∈ l) :
    ∃ x' ∈ l', SameButTexts rd x x' := by
  obtain ⟨a, b, e⟩ := List.append_of_mem hx
  obtain ⟨a', st', b', rfl, h1, _⟩ := allSame_split a h e
  exact ⟨st', by simp, h1⟩

theorem same_opens {rd : Reader J} {st st' : RawStep J} {path : Bytes} (h : SameButTexts rd st st')
    (ho : Opens rd path st) : Opens rd path st' := by
  obtain ⟨params, cuts, v, t, e, hr⟩ := ho
  cases h with
  | same => exact ⟨params, cuts, v, t, e, hr⟩
  | openings p p' cuts u v t t' h h' =>
    simp only [RawStep.message.injEq, Raw.notification.injEq, true_and] at e
    rw [e.1, hr] at h
    cases h
    exact ⟨p', cuts, _, t', rfl, h'⟩
  | changes p p' cuts u v t t' h h' =>
    simp only [RawStep.message.injEq, Raw.notification.injEq] at e
    exact absurd e.1.1 change_ne.2.2.2

theorem same_closes {rd : Reader J} {st st' : RawStep J} {path : Bytes} (h : SameButTexts rd st st')
    (ho : Closes rd path st) : Closes rd path st' := by
  obtain ⟨params, cuts, e, hr⟩ := ho
  cases h with
  | same => exact ⟨params, cuts, e, hr⟩
  | openings p p' cuts u v t t' h h' =>
    simp only [RawStep.message.injEq, Raw.notification.injEq] at e
    exact absurd e.1.1.symm close_ne.2.2.2.1
  | changes p p' cuts u v t t' h h' =>
    simp only [RawStep.message.injEq, Raw.notification.injEq] at e
    exact absurd e.1.1.symm close_ne.2.2.2.2

theorem same_openAfter {rd : Reader J} {l l' : List (RawStep J)} {path : Bytes} (h : AllSameButTexts rd l l')
    (ho : OpenAfter rd l path) : OpenAfter rd l' path := by
  obtain ⟨a, st, b, e, h1, h2⟩ := ho
  obtain ⟨a', st', b', rfl, h3, h4⟩ := allSame_split a h e
  refine ⟨a', st', b', rfl, same_opens h3 h1, fun x hx hc => ?_⟩
  obtain ⟨y, hy, hs⟩ := allSame_mem (allSame_symm h4) hx
  exact h2 y hy (same_closes hs hc)

theorem same_shutDown {rd : Reader J} {l l' : List (RawStep J)} (h : AllSameButTexts rd l l')
    (ho : ShutDown rd l) : ShutDown rd l' := by
  obtain ⟨id, params, cuts, hm, hr⟩ := ho
  obtain ⟨x, hx, hs⟩ := allSame_mem h hm
  cases hs
  exact ⟨id, params, cuts, hx, hr⟩

theorem same_objection {rd : Reader J} {l l' : List (RawStep J)} {st st' : RawStep J} {e : Entry J}
    (h : AllSameButTexts rd l l') (hs : SameButTexts rd st st') (ho : Objection rd l st e) : Objection rd l' st' e := by
  have hopen : ∀ {path}, ¬ OpenAfter rd l path → ¬ OpenAfter rd l' path := fun hn ho => hn (same_openAfter (allSame_symm h) ho)
  cases ho with
  | duplicateOpen params cuts path v t hr h1 =>
    obtain ⟨p', cuts', v', t', rfl, hr'⟩ := same_opens hs ⟨params, cuts, v, t, rfl, hr⟩
    exact .duplicateOpen p' cuts' path v' t' hr' (same_openAfter h h1)
  | unexpectedChange params cuts path v cs hr h1 =>
    generalize hx : RawStep.message (Raw.notification changeMethod params) cuts = x at hs
    cases hs with
    | same => subst hx; exact .unexpectedChange params cuts path v cs hr (hopen h1)
    | openings p p' cuts u v t t' h h' =>
      simp only [RawStep.message.injEq, Raw.notification.injEq] at hx
      exact absurd hx.1.1 change_ne.2.2.2
    | changes p p' cuts u v t t' h h' =>
      simp only [RawStep.message.injEq, Raw.notification.injEq, true_and] at hx
      rw [← hx.1, hr] at h
      cases h
      exact .unexpectedChange p' cuts path _ t' h' (hopen h1)
  | orphanClose params cuts path hr h1 =>
    obtain ⟨p', cuts', rfl, hr'⟩ := same_closes hs ⟨params, cuts, rfl, hr⟩
    exact .orphanClose p' cuts' path hr' (hopen h1)
  | unknownRequest id method params cuts h1 h2 =>
    cases hs
    exact .unknownRequest id method params cuts h1 fun hd => h2 (same_shutDown (allSame_symm h) hd)
  | unhandledNotification method params cuts h1 h2 =>
    generalize hx : RawStep.message (Raw.notification method params) cuts = x at hs
    cases hs with
    | same => subst hx; exact .unhandledNotification method params cuts h1 h2
    | openings p p' cuts u v t t' h h' =>
      simp only [RawStep.message.injEq, Raw.notification.injEq] at hx
      exact absurd (by simp [Understood, hx.1.1]) h1
    | changes p p' cuts u v t t' h h' =>
      simp only [RawStep.message.injEq, Raw.notification.injEq] at hx
      exact absurd (by simp [Understood, hx.1.1]) h1

theorem short_ext {α : Type} {l l' : List α} (h : l.length ≤ 1) (h' : l'.length ≤ 1) (hm : ∀ e, e ∈ l ↔ e ∈ l') : l = l' := by
  match l, l', h, h' with
  | [], [], _, _ => rfl
  | [a], [b], _, _ => simpa using hm a
  | [], [b], _, _ => simpa using hm b
  | [a], [], _, _ => simpa using hm a

theorem logFrom_same {rd : Reader J} {env : Env} {steps steps' : List (RawStep J)} (hs : AllSameButTexts rd steps steps') :
    ∀ (pre pre' : List (RawStep J)) (s s' : State), After rd pre s → After rd pre' s' → AllSameButTexts rd pre pre' →
    ((logFrom rd env s steps).1 <+: (logFrom rd env s' steps').1 ∨
      (logFrom rd env s' steps').1 <+: (logFrom rd env s steps).1) ∧
    ∀ t t', (logFrom rd env s steps).2 = .running t → (logFrom rd env s' steps').2 = .running t' →
      (logFrom rd env s steps).1 = (logFrom rd env s' steps').1 := by
  induction hs with
  | nil => exact fun _ _ _ _ _ _ _ => ⟨.inl (List.prefix_refl _), fun _ _ _ _ => rfl⟩
  | @cons st st' rest rest' hst _ ih =>
    intro pre pre' s s' h h' hp
    have hlog : (logStep rd env s st).1 = (logStep rd env s' st').1 :=
      short_ext (step_log_short ..) (step_log_short ..) fun e =>
        ⟨fun he => (step_log h' st' e).2 (same_objection hp hst ((step_log h st e).1 he)),
         fun he => (step_log h st e).2 (same_objection (allSame_symm hp) (same_symm hst) ((step_log h' st' e).1 he))⟩
    have ha := fun t => after_step (env := env) (t := t) (st := st) h
    have ha' := fun t => after_step (env := env) (t := t) (st := st') h'
    unfold logFrom
    generalize logStep rd env s st = r at hlog ha
    generalize logStep rd env s' st' = r' at hlog ha'
    rcases r with ⟨log, o⟩
    rcases r' with ⟨log', o'⟩
    simp only at hlog
    subst hlog
    cases o with
    | running u =>
      cases o' with
      | running u' =>
        obtain ⟨i1, i2⟩ := ih (pre ++ [st]) (pre' ++ [st']) u u' (ha u rfl) (ha' u' rfl) (allSame_snoc hp hst)
        simp only [List.prefix_append_right_inj]
        exact ⟨i1, fun t t' ht ht' => by rw [i2 t t' ht ht']⟩
      | exited u' => exact ⟨.inr (List.prefix_append ..), fun t t' ht ht' => (by cases ht')⟩
      | failed u' => exact ⟨.inr (List.prefix_append ..), fun t t' ht ht' => (by cases ht')⟩
      | panicked => exact ⟨.inr (List.prefix_append ..), fun t t' ht ht' => (by cases ht')⟩
    | exited u =>
      refine ⟨.inl ?_, fun t t' ht ht' => (by cases ht)⟩
      cases o' <;> first | exact List.prefix_append .. | exact List.prefix_refl _
    | failed u =>
      refine ⟨.inl ?_, fun t t' ht ht' => (by cases ht)⟩
      cases o' <;> first | exact List.prefix_append .. | exact List.prefix_refl _
    | panicked =>
      refine ⟨.inl ?_, fun t t' ht ht' => (by cases ht)⟩
      cases o' <;> first | exact List.prefix_append .. | exact List.prefix_refl _

/-- **C119.**  What is written in documents is not in the log: two runs in which the client opens and changes the same
documents, with other texts, log the same errors, as far as both go. -/
theorem log_hides_texts (rd : Reader J) (env : Env) (cfg : SourceRootConfig) (dyn : Bool) (steps steps' : List (RawStep J))
    (h : AllSameButTexts rd steps steps') :
    ((logRun rd env cfg dyn steps).1 <+: (logRun rd env cfg dyn steps').1 ∨
      (logRun rd env cfg dyn steps').1 <+: (logRun rd env cfg dyn steps).1) ∧
    ∀ s s', (logRun rd env cfg dyn steps).2 = .running s → (logRun rd env cfg dyn steps').2 = .running s' →
      (logRun rd env cfg dyn steps).1 = (logRun rd env cfg dyn steps').1 :=
  logFrom_same h [] [] _ _ (after_start rd cfg dyn) (after_start rd cfg dyn) .nil

/-! ### Cases -/

/-- Parameters are a path and a text. -/
def sampleReader : Reader (Bytes × Text) where
  shutdown _ := true
  cancel _ := some (.num 1)
  progressCancel _ := some ()
  didOpen p := some (some p.1, 1, p.2)
  didChange p := some (some p.1, 2, [⟨none, p.2⟩])
  didClose p := some (some p.1)

/-- A document is opened and changed, another one closed, the first one opened again and saved; then come an unknown
request and one to shut down, and another request after that. -/
def sampleSession (t : Text) : List (RawStep (Bytes × Text)) :=
  [.message (.notification openMethod (pathA, t)) (fun _ => 0),
   .message (.notification changeMethod (pathA, t)) (fun _ => 0),
   .message (.notification closeMethod (pathB, [])) (fun _ => 0),
   .message (.notification openMethod (pathA, t)) (fun _ => 0),
   .message (.notification saveMethod (pathA, [])) (fun _ => 0),
   .message (.notification "$/setTrace".toList (pathA, [])) (fun _ => 0),
   .message (.request (.num 1) "textDocument/hover".toList (pathA, [])) (fun _ => 0),
   .message (.request (.num 2) shutdownMethod (pathA, [])) (fun _ => 0),
   .message (.request (.num 3) "textDocument/hover".toList (pathA, [])) (fun _ => 0)]

example : (∃ s, (logRun sampleReader sampleEnv SourceRootConfig.default false (sampleSession ['x'])).2 = .running s) ∧
    (logRun sampleReader sampleEnv SourceRootConfig.default false (sampleSession ['x'])).1 =
      [.orphanClose pathB, .duplicateOpen pathA, .unhandledNotification saveMethod (pathA, []),
       .unknownRequest (.num 1) "textDocument/hover".toList (pathA, [])] := by
  refine ⟨?_, by decide +kernel⟩
  have h : (match (logRun sampleReader sampleEnv SourceRootConfig.default false (sampleSession ['x'])).2 with
    | .running _ => true
    | _ => false) = true := by decide +kernel
  revert h
  generalize (logRun sampleReader sampleEnv SourceRootConfig.default false (sampleSession ['x'])).2 = o
  cases o <;> simp

example : AllSameButTexts sampleReader (sampleSession ['x']) (sampleSession ['y', 'z']) :=
  .cons (.openings _ _ _ _ _ _ _ rfl rfl) (.cons (.changes _ _ _ _ _ _ _ rfl rfl) (.cons (.same _)
    (.cons (.openings _ _ _ _ _ _ _ rfl rfl) (.cons (.same _) (.cons (.same _) (.cons (.same _) (.cons (.same _)
      (.cons (.same _) .nil))))))))

/-- A document is opened, changed and closed. -/
def orderlySession : List (RawStep (Bytes × Text)) :=
  [.message (.notification openMethod (pathA, ['x'])) (fun _ => 0),
   .message (.notification changeMethod (pathA, ['y'])) (fun _ => 0),
   .message (.notification closeMethod (pathA, [])) (fun _ => 0)]

/-- There is no objection to that. -/
example : ∀ a st b e, orderlySession = a ++ st :: b → ¬ Objection sampleReader a st e := by
  have h : (match (logRun sampleReader sampleEnv SourceRootConfig.default false orderlySession).2 with
    | .running _ => true
    | _ => false) = true := by decide +kernel
  cases hr : (logRun sampleReader sampleEnv SourceRootConfig.default false orderlySession).2 with
  | running s =>
    have h1 := log_is_the_objections sampleReader sampleEnv SourceRootConfig.default false orderlySession s hr
    have h2 : (logRun sampleReader sampleEnv SourceRootConfig.default false orderlySession).1 = [] := by decide +kernel
    rw [h2] at h1
    simpa using objections_nil h1
  | exited s => rw [hr] at h; cases h
  | failed s => rw [hr] at h; cases h
  | panicked => rw [hr] at h; cases h

end Verif.Server.Logged
