import Verif.Editor.ActivateModel

set_option autoImplicit false

/-!
Model of the trace of the editor extension: the `log` object of `/repo/editors/code/src/components/util.ts`, the
setting `move.trace.extension` (`settings.ts`), and what activation and reload (`extension.ts`) do to it.
-/

namespace Verif.Editor.Trace

open Activate

/-- The methods of `log`, util.ts:25-42. -/
inductive Level where
  | debug | info | warn | error
  deriving DecidableEq, Repr

/-- A line of the output channel, util.ts:44-48, without the date. -/
structure Line where
  level : Level
  text : String
  deriving DecidableEq, Repr

/-- util.ts:16-18: the object, its output channel and how often the channel was brought up. -/
structure Log where
  enabled : Bool
  lines : List Line
  shown : Nat
  deriving DecidableEq, Repr

/-- util.ts:44-48, `write`; joining and inspecting the parts of a message is left out. -/
def Log.write (l : Log) (level : Level) (text : String) : Log := { l with lines := l.lines ++ [⟨level, text⟩] }

/-- util.ts:25-42, `debug`, `info`, `warn` and `error`. -/
def Log.say (l : Log) (level : Level) (text : String) : Log :=
  match level with
  | .debug => if !l.enabled then l else l.write .debug text
  | .info => l.write .info text
  | .warn => l.write .warn text
  | .error => let l := l.write .error text; { l with shown := l.shown + 1 }

/-- util.ts:20-22, `setEnabled`. -/
def Log.setEnabled (l : Log) (yes : Bool) : Log := { l with enabled := yes }

/-- A message from each of the handlers of an event. -/
def Log.sayTimes (l : Log) : Nat → Level → String → Log
  | 0, _, _ => l
  | n + 1, level, text => (l.say level text).sayTimes n level text

structure State where
  base : Activate.State
  /-- `ExtensionSettings.logTrace`, settings.ts:31-33 -/
  setting : Bool
  log : Log

/-- What can happen. -/
inductive Event where
  /-- the user sets `move.trace.extension` -/
  | set (value : Bool)
  /-- anything of `ActivateModel` -/
  | act (a : Action)
  /-- a message of any other part of the extension -/
  | say (level : Level) (text : String)
  deriving DecidableEq, Repr

/-- The settings have changed: each handler writes, extension.ts:91-94. -/
def changed (s : State) : State :=
  { s with base := Activate.step s.base .config,
           log := s.log.sayTimes (times s.base .config) .debug "move section in settings.json changed" }

/-- extension.ts:25-26, the beginning of `tryActivate`. -/
def Log.activating (l : Log) (setting : Bool) : Log :=
  (l.setEnabled setting).say .debug "Activating the extension..."

/-- extension.ts:53-65 and 114: the messages of the command.  Those of the clients that are stopped in between are
left out. -/
def Log.reloading (l : Log) (setting : Bool) : Log :=
  ((l.say .debug "\"move.reload\" called").say .debug "Deactivating the extension...").activating setting

/-- Whether a call of the command arrives at the command. -/
def arrives (s : Activate.State) : Bool := s.calls != 0 && s.live.any fun r => r.what == .reload

def step (s : State) : Event → State
  | .set v => if v = s.setting then s else changed { s with setting := v }
  | .act .config => changed s
  | .act .deliver =>
    { s with base := Activate.step s.base .deliver,
             log := if arrives s.base then s.log.reloading s.setting else s.log }
  | .act (.settle ok) =>
    { s with base := Activate.step s.base (.settle ok),
             -- extension.ts:50
             log := if ok && s.base.waiting != 0 then s.log.say .debug "Register command \"move.reload\"" else s.log }
  | .act a => { s with base := Activate.step s.base a }
  | .say level text => { s with log := s.log.say level text }

/-- The editor activates the extension; util.ts:17: the log is enabled before. -/
def start (setting : Bool) : State := ⟨Activate.start, setting, Log.activating ⟨true, [], 0⟩ setting⟩

def run (setting : Bool) (evs : List Event) : State := evs.foldl step (start setting)

end Verif.Editor.Trace
