import Verif.Project.Startup
import Verif.Server.Responses

set_option autoImplicit false

/-!
The server as a process: its exit status (C111) and its log (C112).

Model of `/repo/crates/move_language_server/src/bin/move_language_server.rs` around `start`
(`Verif/Project/StartupModel.lean`) and the main loop (`Verif/Server/Model.lean`), of `logger.rs`, and of the
environment the extension starts the server in (`/repo/editors/code/src/components/client.ts`).

Contracts, as parameters: `lsp_server` (the handshake and the threads of the connection), the file system, and
`tracing_subscriber` (`EnvFilter`, the levels).  `RUST_BACKTRACE`, which only changes how a panic is printed, and
how the formatter arranges a line of the log are not modelled.
-/

namespace Verif.Process

open Verif.Project Verif.Project.Startup Verif.Project.Startup.Spec

/-! ### Model: the log -/

/-- `tracing::Level`. -/
inductive Level where
  | error | warn | info | debug | trace
  deriving DecidableEq, Repr

/-- An event given to `tracing`: its level, the module it comes from, its text. -/
structure Record where
  level : Level
  target : Text
  text : Text
  deriving DecidableEq, Repr

/-- The variables of the environment that are read, or set by the extension. -/
structure Environ where
  /-- `RA_LOG_FILE`, move_language_server.rs:22 -/
  raLogFile : Option Text
  /-- `MOVE_LS_LOG`, move_language_server.rs:45 -/
  moveLsLog : Option Text
  /-- `CHALK_DEBUG`, logger.rs:45 -/
  chalkDebug : Option Text
  /-- `RUST_LOG`, client.ts:29 -/
  rustLog : Option Text
  deriving DecidableEq, Repr

/-- What the process gets from its surroundings. -/
structure Sys where
  /-- `fs::File::create`, after an attempt to create the directory, move_language_server.rs:38-41 -/
  createFile : Text → Bool
  /-- `parse::<LevelFilter>`; `some none` is `off` -/
  parseLevel : Text → Option (Option Level)
  /-- `EnvFilter`: `none` is `EnvFilter::default()`, `some dirs` is `EnvFilter::new(dirs)`, and the level is the
  one of the directives for the crates of chalk -/
  accepts : Option Text → Option (Option Level) → Record → Bool

/-- `Logger` with what `install` makes of `CHALK_DEBUG`, logger.rs:23-26 and 45-51. -/
structure Logger where
  file : Option Text
  filter : Option Text
  chalk : Option (Option Level)
  deriving DecidableEq, Repr

/-- `Logger::new`, logger.rs:29-33. -/
def Logger.new (file filter : Option Text) : Logger := ⟨file, filter, none⟩

/-- How a part of the program ends. -/
inductive Result where
  | ok | error | panic | running
  deriving DecidableEq, Repr

/-- `Logger::install`, logger.rs:35-85.  `none`: the `expect` of line 47 panics.  That the directives of lines
71-73 can be parsed is a contract. -/
def Logger.install (sys : Sys) (env : Environ) (l : Logger) : Option Logger :=
  match env.chalkDebug with
  | none => some l
  | some val =>
    match sys.parseLevel val with
    | none => none
    | some level => some { l with chalk := some level }

/-- `setup_logging`, move_language_server.rs:31-49, for the file of lines 20-25. -/
def setupLogging (sys : Sys) (env : Environ) : Except Result Logger :=
  match env.raLogFile with
  | some path =>
    if sys.createFile path then
      match ((Logger.new (some path) env.moveLsLog).install sys env) with
      | some l => .ok l
      | none => .error .panic
    else .error .error
  | none =>
    match ((Logger.new none env.moveLsLog).install sys env) with
    | some l => .ok l
    | none => .error .panic

/-- A line on the standard error stream: of the log, or printed by the program itself (`eprintln!`, a panic). -/
inductive Line where
  | log (r : Record)
  | printed
  deriving DecidableEq, Repr

/-! ### Model: the program -/

/-- A message on the standard output stream. -/
inductive Sent where
  | initializeResult
  | message (m : Server.Out)
  deriving DecidableEq, Repr

/-- What the program does, in this order: give a record to `tracing`, or send a message. -/
inductive Emit where
  | record (r : Record)
  | sent (m : Sent)
  deriving DecidableEq, Repr

/-- What happens to the program after the log is set up. -/
structure Session where
  /-- `initialize_start`: the parameters as far as they can be read, `some none` if they cannot, `none` if the
  client sends no `initialize` request -/
  opening : Option (Option InitializeParams)
  /-- `initialize_finish`: the client sends `initialized` -/
  acknowledged : Bool
  cwd : Option Path
  toFilePath : Text → Option FilePath
  fs : FileSystem
  iter : List Path → List Path
  env : Server.Env
  cfg : Server.SourceRootConfig
  steps : List Server.Step
  /-- The records of the main loop and of the threads. -/
  records : List Record
  /-- `io_threads.join()` -/
  joins : Bool

/-- The texts of the records of `run_server` are left out. -/
def ofServer (level : Level) : Record := ⟨level, "move_language_server".toList, []⟩

/-- What the main loop has sent. -/
def outOf : Server.Outcome → List Server.Out
  | .running s => s.out
  | .exited s => s.out
  | .failed s => s.out
  | .panicked => []

/-- `main_loop` and the lines after it, move_language_server.rs:114-119.  What was sent before a panic of the main
loop is left out. -/
def finishServer (s : Session) (config : Config) : List Emit × Result :=
  let outcome := Server.run s.env s.cfg config.didSaveRegistration s.steps
  let did := s.records.map Emit.record ++ (outOf outcome).map (Emit.sent ∘ Sent.message)
  match outcome with
  | .running _ => (did, .running)
  | .failed _ => (did, .error)
  | .panicked => (did, .panic)
  | .exited _ => if s.joins then (did ++ [.record (ofServer .info)], .ok) else (did, .error)

/-- `run_server`, move_language_server.rs:51-120; the record of lines 91-93 is left out. -/
def runServer (s : Session) : List Emit × Result :=
  match s.opening with
  | none => ([.record (ofServer .info)], .error)
  | some none => ([.record (ofServer .info), .record (ofServer .info)], .error)
  | some (some params) =>
    match start s.toFilePath s.cwd s.fs s.iter params with
    | none => ([.record (ofServer .info), .record (ofServer .info)], .error)
    | some (_, config) =>
      if s.acknowledged then
        let (did, result) := finishServer s config
        ([.record (ofServer .info), .record (ofServer .info), .sent .initializeResult, .record (ofServer .info)]
          ++ (if config.linkedProjects.isEmpty then [.record (ofServer .error)] else []) ++ did, result)
      else ([.record (ofServer .info), .record (ofServer .info), .sent .initializeResult], .error)

/-- The process: its streams, the log file, and its status once it has ended. -/
structure Process where
  stdout : List Sent
  stderr : List Line
  file : List Record
  status : Option Nat
  deriving DecidableEq, Repr

def Process.new : Process := ⟨[], [], [], none⟩

/-- The layers of the subscriber, logger.rs:53-82: the one of the log writes to the file or the standard error
stream, the one of chalk to the latter. -/
def Process.log (sys : Sys) (l : Logger) (p : Process) (r : Record) : Process :=
  if sys.accepts l.filter l.chalk r then
    let p := match l.file with
      | some _ => { p with file := p.file ++ [r] }
      | none => { p with stderr := p.stderr ++ [.log r] }
    if l.chalk.isSome then { p with stderr := p.stderr ++ [.log r] } else p
  else p

def Process.emit (sys : Sys) (l : Logger) (p : Process) : Emit → Process
  | .record r => p.log sys l r
  | .sent m => { p with stdout := p.stdout ++ [m] }

/-- `main` and `try_main`, move_language_server.rs:11-29.  Nothing is logged before the log is set up.  A process
that returns from `main` has status 0, one whose main thread panics 101. -/
def main (sys : Sys) (env : Environ) (s : Session) : Process :=
  match setupLogging sys env with
  | .error _ => { Process.new with stderr := [.printed], status := some 101 }
  | .ok l =>
    let (did, result) := runServer s
    let p := did.foldl (Process.emit sys l) Process.new
    match result with
    | .running => p
    | .ok => { p with status := some 0 }
    | .error =>
      let p := p.log sys l (ofServer .error)
      { p with stderr := p.stderr ++ [.printed], status := some 101 }
    | .panic => { p with stderr := p.stderr ++ [.printed], status := some 101 }

/-- The environment of the server when the extension starts it, client.ts:27-30: that of the editor with
`RUST_LOG` replaced. -/
def ofExtension (editor : Environ) : Environ := { editor with rustLog := some "info".toList }

/-! ### Specification -/

/-- The log can be set up: the file it is to be written to can be created, and the level given for chalk is a
level. -/
def LogUsable (sys : Sys) (env : Environ) : Prop :=
  (∀ path, env.raLogFile = some path → sys.createFile path = true) ∧
  (∀ val, env.chalkDebug = some val → (sys.parseLevel val).isSome = true)

/-- The client opens the session as the protocol says, and the server has a directory to work in. -/
def Opened (s : Session) (params : InitializeParams) : Prop :=
  s.opening = some (some params) ∧ s.acknowledged = true ∧ ∃ dir, IsRoot s.toFilePath s.cwd params dir

/-- The main loop runs, for one of the two configurations a client can choose, until the step after `pre`. -/
def RunsUntil (s : Session) (params : InitializeParams) (pre : List Server.Step) : Prop :=
  ∃ st, Server.run s.env s.cfg ((Config.new [] params.capabilities).didSaveRegistration) pre = .running st

/-- The client says good-bye: an `exit` notification reaches a server that is still running. -/
def SaysExit (s : Session) (params : InitializeParams) : Prop :=
  ∃ pre cuts post, s.steps = pre ++ .message .exit cuts :: post ∧ RunsUntil s params pre

/-- The messages sent before the notification contain an accepted request to shut down. -/
def AskedForShutdown (s : Session) : Prop :=
  ∃ pre id cuts mid cuts' post,
    s.steps = pre ++ .message (.shutdown id true) cuts :: mid ++ .message .exit cuts' :: post

/-! ### Proofs -/

theorem install_iff (sys : Sys) (env : Environ) (l : Logger) :
    (l.install sys env).isSome = true ↔ ∀ val, env.chalkDebug = some val → (sys.parseLevel val).isSome = true := by
  unfold Logger.install
  cases env.chalkDebug with
  | none => simp
  | some val => cases h : sys.parseLevel val <;> simp [h]

theorem setup_iff (sys : Sys) (env : Environ) : (∃ l, setupLogging sys env = .ok l) ↔ LogUsable sys env := by
  unfold LogUsable setupLogging
  cases hf : env.raLogFile with
  | none =>
    have h := install_iff sys env (Logger.new none env.moveLsLog)
    cases hi : (Logger.new none env.moveLsLog).install sys env with
    | none => rw [hi] at h; simpa using h
    | some l => rw [hi] at h; simpa using h
  | some path =>
    have h := install_iff sys env (Logger.new (some path) env.moveLsLog)
    by_cases hc : sys.createFile path = true
    · cases hi : (Logger.new (some path) env.moveLsLog).install sys env with
      | none => rw [hi] at h; simp only [hc, if_true, hi]; simpa [hc] using h
      | some l => rw [hi] at h; simp only [hc, if_true, hi]; simpa [hc] using h
    · simp [hc]

theorem emit_stdout (sys : Sys) (l : Logger) (p : Process) (es : List Emit) :
    (es.foldl (Process.emit sys l) p).stdout = p.stdout ++ es.filterMap (fun
      | .sent m => some m
      | .record _ => none) := by
  induction es generalizing p with
  | nil => simp
  | cons e es ih =>
    rw [List.foldl_cons, ih]
    cases e with
    | record r =>
      have : (p.emit sys l (.record r)).stdout = p.stdout := by
        simp only [Process.emit, Process.log]
        split
        · cases l.file <;> cases l.chalk <;> rfl
        · rfl
      rw [this]; rfl
    | sent m => simp [Process.emit]

theorem log_stdout (sys : Sys) (l : Logger) (p : Process) (r : Record) : (p.log sys l r).stdout = p.stdout := by
  unfold Process.log
  split
  · cases l.file <;> cases l.chalk <;> rfl
  · rfl

theorem log_status (sys : Sys) (l : Logger) (p : Process) (r : Record) : (p.log sys l r).status = p.status := by
  unfold Process.log
  split
  · cases l.file <;> cases l.chalk <;> rfl
  · rfl

theorem emit_status (sys : Sys) (l : Logger) (p : Process) (es : List Emit) :
    (es.foldl (Process.emit sys l) p).status = p.status := by
  induction es generalizing p with
  | nil => rfl
  | cons e es ih =>
    rw [List.foldl_cons, ih]
    cases e with
    | record r => exact log_status sys l p r
    | sent m => rfl

/-- The status and the messages of the process, if the log can be set up. -/
theorem main_of_setup (sys : Sys) (env : Environ) (s : Session) (h : LogUsable sys env) :
    (main sys env s).status = (match (runServer s).2 with
      | .running => none
      | .ok => some 0
      | .error => some 101
      | .panic => some 101) ∧
    (main sys env s).stdout = (runServer s).1.filterMap (fun
      | .sent m => some m
      | .record _ => none) := by
  obtain ⟨l, hl⟩ := (setup_iff sys env).2 h
  unfold main
  rw [hl]
  simp only
  have h1 := emit_stdout sys l Process.new (runServer s).1
  have h2 := emit_status sys l Process.new (runServer s).1
  cases (runServer s).2 with
  | running => exact ⟨h2, h1⟩
  | ok => exact ⟨rfl, h1⟩
  | panic => exact ⟨rfl, h1⟩
  | error =>
    refine ⟨rfl, ?_⟩
    show (Process.log _ _ _ _).stdout = _
    rw [log_stdout]
    exact h1

theorem start_registration (s : Session) (params : InitializeParams) (enc : Option Text) (config : Config)
    (h : start s.toFilePath s.cwd s.fs s.iter params = some (enc, config)) :
    config.didSaveRegistration = (Config.new [] params.capabilities).didSaveRegistration := by
  unfold start at h
  cases hr : rootPath s.toFilePath s.cwd params with
  | none => rw [hr] at h; cases h
  | some root =>
    rw [hr] at h
    simp only [Option.some.injEq, Prod.mk.injEq] at h
    rw [← h.2]
    rfl

/-- What `run_server` returns after a session that was opened. -/
theorem runServer_opened (s : Session) (params : InitializeParams) (h : Opened s params) :
    (runServer s).2 = (match Server.run s.env s.cfg ((Config.new [] params.capabilities).didSaveRegistration) s.steps with
      | .running _ => .running
      | .failed _ => .error
      | .panicked => .panic
      | .exited _ => if s.joins then .ok else .error) := by
  obtain ⟨h1, h2, h3⟩ := h
  have h4 := (starts_iff s.toFilePath s.cwd s.fs s.iter params).2 h3
  unfold runServer
  rw [h1]
  simp only
  cases hs : start s.toFilePath s.cwd s.fs s.iter params with
  | none => rw [hs] at h4; cases h4
  | some c =>
    obtain ⟨enc, config⟩ := c
    simp only [h2, if_true]
    rw [← start_registration s params enc config hs]
    unfold finishServer
    cases Server.run s.env s.cfg config.didSaveRegistration s.steps with
    | running st => rfl
    | failed st => rfl
    | panicked => rfl
    | exited st => cases s.joins <;> rfl

/-- A session that was not opened ends with an error. -/
theorem runServer_not_opened (s : Session) (h : ¬ ∃ params, Opened s params) : (runServer s).2 = .error := by
  unfold runServer
  cases h1 : s.opening with
  | none => rfl
  | some o =>
    cases o with
    | none => rfl
    | some params =>
      cases hs : start s.toFilePath s.cwd s.fs s.iter params with
      | none => simp only [hs]
      | some c =>
        simp only [hs]
        by_cases h2 : s.acknowledged = true
        · exact absurd ⟨params, h1, h2, (starts_iff _ _ s.fs s.iter params).1 (by rw [hs]; rfl)⟩ h
        · simp [h2]

theorem exited_iff (s : Session) (params : InitializeParams) :
    (∃ st, Server.run s.env s.cfg ((Config.new [] params.capabilities).didSaveRegistration) s.steps = .exited st) ↔
      SaysExit s params := by
  constructor
  · rintro ⟨st, h⟩
    obtain ⟨pre, cuts, post, h1, h2⟩ := (Server.exits_iff_exit_received ..).1 h
    exact ⟨pre, cuts, post, h1, st, h2⟩
  · rintro ⟨pre, cuts, post, h1, st, h2⟩
    exact ⟨st, (Server.exits_iff_exit_received ..).2 ⟨pre, cuts, post, h1, h2⟩⟩

/-! ### Exit status -/

/-- **C111.**  The process succeeds exactly if its log could be set up, the session was opened, the client said
`exit`, and the connection could be closed properly. -/
theorem succeeds_iff (sys : Sys) (env : Environ) (s : Session) :
    (main sys env s).status = some 0 ↔
      LogUsable sys env ∧ s.joins = true ∧ ∃ params, Opened s params ∧ SaysExit s params := by
  constructor
  · intro h
    by_cases hl : LogUsable sys env
    · rw [(main_of_setup sys env s hl).1] at h
      by_cases ho : ∃ params, Opened s params
      · obtain ⟨params, ho⟩ := ho
        rw [runServer_opened s params ho] at h
        cases hr : Server.run s.env s.cfg ((Config.new [] params.capabilities).didSaveRegistration) s.steps with
        | running st => simp [hr] at h
        | failed st => simp [hr] at h
        | panicked => simp [hr] at h
        | exited st =>
          simp only [hr] at h
          by_cases hj : s.joins = true
          · exact ⟨hl, hj, params, ho, (exited_iff s params).1 ⟨st, hr⟩⟩
          · simp [hj] at h
      · rw [runServer_not_opened s ho] at h
        simp at h
    · have hn : ∀ l, setupLogging sys env ≠ .ok l := fun l e => hl ((setup_iff sys env).1 ⟨l, e⟩)
      unfold main at h
      cases hs : setupLogging sys env with
      | ok l => exact absurd hs (hn l)
      | error r => rw [hs] at h; simp at h
  · rintro ⟨hl, hj, params, ho, he⟩
    obtain ⟨st, hr⟩ := (exited_iff s params).2 he
    rw [(main_of_setup sys env s hl).1, runServer_opened s params ho, hr]
    simp [hj]

/-- **C111.**  There is no other success, and one status for all failures. -/
theorem status_is (sys : Sys) (env : Environ) (s : Session) :
    (main sys env s).status = none ∨ (main sys env s).status = some 0 ∨ (main sys env s).status = some 101 := by
  by_cases hl : LogUsable sys env
  · rw [(main_of_setup sys env s hl).1]
    cases (runServer s).2 <;> simp
  · unfold main
    cases hs : setupLogging sys env with
    | ok l => exact absurd ((setup_iff sys env).1 ⟨l, hs⟩) hl
    | error r => exact .inr (.inr rfl)

/-- **C111.**  The process goes on exactly as long as the main loop runs. -/
theorem goes_on_iff (sys : Sys) (env : Environ) (s : Session) :
    (main sys env s).status = none ↔
      LogUsable sys env ∧ ∃ params, Opened s params ∧ RunsUntil s params s.steps := by
  constructor
  · intro h
    by_cases hl : LogUsable sys env
    · rw [(main_of_setup sys env s hl).1] at h
      by_cases ho : ∃ params, Opened s params
      · obtain ⟨params, ho⟩ := ho
        rw [runServer_opened s params ho] at h
        cases hr : Server.run s.env s.cfg ((Config.new [] params.capabilities).didSaveRegistration) s.steps with
        | running st => exact ⟨hl, params, ho, st, hr⟩
        | failed st => simp [hr] at h
        | panicked => simp [hr] at h
        | exited st =>
          simp only [hr] at h
          cases hj : s.joins <;> simp [hj] at h
      · rw [runServer_not_opened s ho] at h
        simp at h
    · unfold main at h
      cases hs : setupLogging sys env with
      | ok l => exact absurd ((setup_iff sys env).1 ⟨l, hs⟩) hl
      | error r => rw [hs] at h; simp at h
  · rintro ⟨hl, params, ho, st, hr⟩
    rw [(main_of_setup sys env s hl).1, runServer_opened s params ho, hr]

/-- **C111**, what the protocol asks for: a server that is told to exit without having been asked to shut down
has a status other than 0.  The code violates it, for every session without a request to shut down. -/
theorem exit_without_shutdown_succeeds (sys : Sys) (env : Environ) (s : Session) (params : InitializeParams)
    (hl : LogUsable sys env) (hj : s.joins = true) (ho : Opened s params) (he : SaysExit s params)
    (_ : ¬ AskedForShutdown s) : (main sys env s).status = some 0 :=
  (succeeds_iff sys env s).2 ⟨hl, hj, params, ho, he⟩

/-- **C111**, the part of the protocol that holds: after an accepted request to shut down, `exit` succeeds. -/
theorem exit_after_shutdown_succeeds_partial (sys : Sys) (env : Environ) (s : Session) (params : InitializeParams)
    (hl : LogUsable sys env) (hj : s.joins = true) (ho : Opened s params) (he : SaysExit s params)
    (_ : AskedForShutdown s) : (main sys env s).status = some 0 :=
  (succeeds_iff sys env s).2 ⟨hl, hj, params, ho, he⟩

/-- **C111.**  A log that cannot be set up keeps the server from starting: not a single message is sent. -/
theorem no_log_no_server (sys : Sys) (env : Environ) (s : Session) (h : ¬ LogUsable sys env) :
    (main sys env s).status = some 101 ∧ (main sys env s).stdout = [] := by
  unfold main
  cases hs : setupLogging sys env with
  | ok l => exact absurd ((setup_iff sys env).1 ⟨l, hs⟩) h
  | error r => exact ⟨rfl, rfl⟩

/-! ### The log -/

/-- **C112.**  The log does not disturb the protocol: whatever is logged and wherever, the messages on the
standard output stream and the status are the same. -/
theorem log_is_no_message (sys sys' : Sys) (env env' : Environ) (s : Session)
    (h : LogUsable sys env) (h' : LogUsable sys' env') :
    (main sys env s).stdout = (main sys' env' s).stdout ∧ (main sys env s).status = (main sys' env' s).status := by
  rw [(main_of_setup sys env s h).1, (main_of_setup sys env s h).2, (main_of_setup sys' env' s h').1,
    (main_of_setup sys' env' s h').2]
  exact ⟨rfl, rfl⟩

/-- The records the filter lets pass, of those the program makes. -/
def logged (sys : Sys) (env : Environ) (s : Session) : List Record :=
  ((runServer s).1.filterMap (fun
    | .record r => some r
    | .sent _ => none) ++ if (runServer s).2 = .error then [ofServer .error] else []).filter fun r =>
      sys.accepts env.moveLsLog (env.chalkDebug.bind sys.parseLevel) r

theorem log_file (sys : Sys) (l : Logger) (p : Process) (r : Record) :
    (p.log sys l r).file = p.file ++ if sys.accepts l.filter l.chalk r && l.file.isSome then [r] else [] := by
  unfold Process.log
  by_cases h : sys.accepts l.filter l.chalk r = true
  · simp only [h, if_true]
    cases l.file <;> cases l.chalk <;> simp
  · simp [h]

theorem emit_file (sys : Sys) (l : Logger) (p : Process) (es : List Emit) :
    (es.foldl (Process.emit sys l) p).file = p.file ++ (es.filterMap (fun
      | .record r => some r
      | .sent _ => none)).filter (fun r => sys.accepts l.filter l.chalk r && l.file.isSome) := by
  induction es generalizing p with
  | nil => simp
  | cons e es ih =>
    rw [List.foldl_cons, ih]
    cases e with
    | sent m => simp [Process.emit]
    | record r =>
      simp only [Process.emit, log_file, List.filterMap_cons, List.filter_cons]
      split <;> simp

/-- How often a record stands on the standard error stream, for one that is logged. -/
def copies (l : Logger) : Nat := (if l.file.isSome then 0 else 1) + if l.chalk.isSome then 1 else 0

theorem log_stderr (sys : Sys) (l : Logger) (p : Process) (r : Record) :
    (p.log sys l r).stderr = p.stderr ++ if sys.accepts l.filter l.chalk r then List.replicate (copies l) (.log r) else [] := by
  unfold Process.log copies
  by_cases h : sys.accepts l.filter l.chalk r = true
  · simp only [h, if_true]
    cases l.file <;> cases l.chalk <;> simp [List.replicate_succ]
  · simp [h]

theorem emit_stderr (sys : Sys) (l : Logger) (p : Process) (es : List Emit) :
    (es.foldl (Process.emit sys l) p).stderr = p.stderr ++ ((es.filterMap (fun
      | .record r => some r
      | .sent _ => none)).filter (fun r => sys.accepts l.filter l.chalk r)).flatMap
        (fun r => List.replicate (copies l) (Line.log r)) := by
  induction es generalizing p with
  | nil => simp
  | cons e es ih =>
    rw [List.foldl_cons, ih]
    cases e with
    | sent m => simp [Process.emit]
    | record r =>
      simp only [Process.emit, log_stderr, List.filterMap_cons, List.filter_cons]
      split <;> simp

/-- The logger that is installed. -/
theorem setup_logger (sys : Sys) (env : Environ) (l : Logger) (h : setupLogging sys env = .ok l) :
    l = ⟨env.raLogFile, env.moveLsLog, env.chalkDebug.bind sys.parseLevel⟩ := by
  have key : ∀ file, (Logger.new file env.moveLsLog).install sys env = some l →
      l = ⟨file, env.moveLsLog, env.chalkDebug.bind sys.parseLevel⟩ := by
    intro file hi
    unfold Logger.install at hi
    cases hc : env.chalkDebug with
    | none => rw [hc] at hi; simp [Logger.new] at hi; rw [← hi]; rfl
    | some val =>
      rw [hc] at hi
      simp only at hi
      cases hp : sys.parseLevel val with
      | none => rw [hp] at hi; cases hi
      | some level =>
        rw [hp] at hi
        simp [Logger.new] at hi
        rw [← hi]
        simp [hp]
  unfold setupLogging at h
  cases hf : env.raLogFile with
  | none =>
    rw [hf] at h
    simp only at h
    cases hi : (Logger.new none env.moveLsLog).install sys env with
    | none => rw [hi] at h; cases h
    | some l' => rw [hi] at h; cases h; exact key none hi
  | some path =>
    rw [hf] at h
    simp only at h
    split at h
    · cases hi : (Logger.new (some path) env.moveLsLog).install sys env with
      | none => rw [hi] at h; cases h
      | some l' => rw [hi] at h; cases h; exact key (some path) hi
    · cases h

/-- The file and the standard error stream in terms of the records that are logged. -/
theorem main_log (sys : Sys) (env : Environ) (s : Session) (h : LogUsable sys env) :
    (main sys env s).file = (if env.raLogFile.isSome then logged sys env s else []) ∧
    (main sys env s).stderr.filterMap (fun
      | .log r => some r
      | .printed => none) = (logged sys env s).flatMap (List.replicate
        ((if env.raLogFile.isSome then 0 else 1) + if env.chalkDebug.isSome then 1 else 0)) := by
  obtain ⟨l, hl⟩ := (setup_iff sys env).2 h
  have e := setup_logger sys env l hl
  have hchalk : (env.chalkDebug.bind sys.parseLevel).isSome = env.chalkDebug.isSome := by
    cases hc : env.chalkDebug with
    | none => rfl
    | some val => simpa using h.2 val hc
  have hcopies : copies l = (if env.raLogFile.isSome then 0 else 1) + if env.chalkDebug.isSome then 1 else 0 := by
    rw [e]; simp only [copies, hchalk]
  have hfm : ∀ rs : List Record, (rs.flatMap fun r => List.replicate (copies l) (Line.log r)).filterMap (fun
      | .log r => some r
      | .printed => none) = rs.flatMap (List.replicate (copies l)) := by
    intro rs
    induction rs with
    | nil => rfl
    | cons r rs ih =>
      rw [List.flatMap_cons, List.filterMap_append, ih, List.flatMap_cons]
      congr 1
      generalize copies l = n
      induction n with
      | zero => rfl
      | succ n ihn => simp [List.replicate_succ, ihn]
  have hb : ∀ rs : List Record, rs.filter (fun r => sys.accepts l.filter l.chalk r && l.file.isSome) =
      if env.raLogFile.isSome then rs.filter (fun r => sys.accepts l.filter l.chalk r) else [] := by
    intro rs
    have : l.file = env.raLogFile := by rw [e]
    rw [this]
    cases env.raLogFile <;> simp
  have hacc : ∀ rs : List Record, rs.filter (fun r => sys.accepts l.filter l.chalk r) =
      rs.filter (fun r => sys.accepts env.moveLsLog (env.chalkDebug.bind sys.parseLevel) r) := by
    intro rs; rw [e]
  have hfile := emit_file sys l Process.new (runServer s).1
  have herr := emit_stderr sys l Process.new (runServer s).1
  simp only [Process.new, List.nil_append] at hfile herr
  rw [hb, hacc] at hfile
  rw [hacc] at herr
  unfold main logged
  rw [hl, ← hcopies]
  simp only
  cases hr : (runServer s).2 with
  | running => simp [Process.new, hfile, herr, hfm]
  | ok => simp [Process.new, hfile, herr, hfm]
  | panic => simp [Process.new, hfile, herr, hfm]
  | error =>
    have hf2 := hb [ofServer .error]
    rw [hacc] at hf2
    have ha2 := hacc [ofServer .error]
    simp only [log_file, log_stderr, Process.new, hfile, herr, if_true, List.filter_append,
      List.flatMap_append, List.filterMap_append, hfm, ← ha2]
    constructor
    · have : l.file = env.raLogFile := by rw [e]
      rw [this]
      cases env.raLogFile <;> cases hx : sys.accepts l.filter l.chalk (ofServer .error) <;> simp [hx]
    · cases hx : sys.accepts l.filter l.chalk (ofServer .error) with
      | false => simp [hx]
      | true =>
        have := hfm [ofServer .error]
        simp only [List.flatMap_cons, List.flatMap_nil, List.append_nil] at this
        simp [hx, this]

/-- **C112.**  With a log file, everything that is logged stands in the file; without, it stands on the standard
error stream, once. -/
theorem log_stands_where_asked (sys : Sys) (env : Environ) (s : Session) (h : LogUsable sys env)
    (hc : env.chalkDebug = none) :
    (env.raLogFile.isSome = true → (main sys env s).file = logged sys env s ∧
      ∀ r, Line.log r ∉ (main sys env s).stderr) ∧
    (env.raLogFile = none → (main sys env s).file = [] ∧
      (main sys env s).stderr.filterMap (fun
        | .log r => some r
        | .printed => none) = logged sys env s) := by
  have hm := main_log sys env s h
  constructor
  · intro hf
    rw [hf, hc] at hm
    refine ⟨hm.1, fun r hr => ?_⟩
    have h2 := hm.2
    simp only [if_true, Option.isSome_none, Bool.false_eq_true, if_false, Nat.add_zero] at h2
    have : r ∈ (main sys env s).stderr.filterMap (fun
        | .log r => some r
        | .printed => none) := List.mem_filterMap.2 ⟨_, hr, rfl⟩
    rw [h2] at this
    simp at this
  · intro hf
    rw [hf, hc] at hm
    refine ⟨hm.1, ?_⟩
    rw [hm.2]
    generalize logged sys env s = rs
    induction rs with
    | nil => rfl
    | cons r rs ih => simpa using ih

/-- **C112.**  The variable the extension sets to get more records is not read: with any value the process does
the same. -/
theorem rust_log_is_not_read (sys : Sys) (env : Environ) (value : Option Text) (s : Session) :
    main sys { env with rustLog := value } s = main sys env s := rfl

/-- **C112**, what the extension asks for: the records of level `info` are logged.  The code violates it: if the
default filter of the library lets only errors pass, no session started by the extension from an editor without
`MOVE_LS_LOG` and `CHALK_DEBUG` logs anything but errors. -/
theorem extension_gets_errors_only (sys : Sys) (editor : Environ) (s : Session)
    (hdefault : ∀ r, sys.accepts none none r = true → r.level = .error)
    (h1 : editor.moveLsLog = none) (h2 : editor.chalkDebug = none) :
    ∀ r ∈ logged sys (ofExtension editor) s, r.level = .error := by
  intro r hr
  unfold logged at hr
  rw [List.mem_filter] at hr
  have h3 := hr.2
  simp only [ofExtension, h1, h2, Option.bind_none] at h3
  exact hdefault r h3

/-- **C112.**  In a session that was opened and has not failed, the server reports an error of its own exactly if
no manifest is found from any of the directories that are searched, provided the filter lets errors pass and the
records of the main loop contain no such error. -/
theorem missing_project_is_logged (sys : Sys) (env : Environ) (s : Session) (params : InitializeParams)
    (hu : LogUsable sys env) (ho : Opened s params) (hs : (main sys env s).status ≠ some 101)
    (hiter : ∀ l, (s.iter l).Nodup ∧ ∀ m, m ∈ s.iter l ↔ m ∈ l)
    (hacc : ∀ dirs chalk r, r.level = .error → sys.accepts dirs chalk r = true)
    (hrec : ofServer .error ∉ s.records) :
    ofServer .error ∈ logged sys env s ↔
      ∀ dir, IsSearched s.toFilePath s.cwd params dir → ∀ found, discover s.fs dir = some found → found = [] := by
  have herr : (runServer s).2 ≠ .error := by
    intro he
    apply hs
    obtain ⟨l, hl⟩ := (setup_iff sys env).2 hu
    unfold main
    rw [hl]
    simp only [he]
  obtain ⟨h1, h2, h3⟩ := ho
  have h4 := (starts_iff s.toFilePath s.cwd s.fs s.iter params).2 h3
  unfold logged
  rw [if_neg herr, List.append_nil, List.mem_filter]
  simp only [hacc _ _ (ofServer .error) rfl, and_true]
  unfold runServer
  rw [h1]
  simp only
  cases hst : start s.toFilePath s.cwd s.fs s.iter params with
  | none => rw [hst] at h4; cases h4
  | some c =>
    obtain ⟨enc, config⟩ := c
    obtain ⟨_, _, hmem⟩ := searches_folders s.toFilePath s.cwd s.fs s.iter hiter params enc config hst
    have hdid : ofServer .error ∉ (finishServer s config).1.filterMap (fun
        | .record r => some r
        | .sent _ => none) := by
      rw [List.mem_filterMap]
      rintro ⟨e, he, hx⟩
      cases e with
      | sent m => cases hx
      | record r =>
        simp only [Option.some.injEq] at hx
        subst hx
        unfold finishServer at he
        generalize Server.run s.env s.cfg config.didSaveRegistration s.steps = o at he
        cases o with
        | running st => simp [hrec] at he
        | failed st => simp [hrec] at he
        | panicked => simp [hrec] at he
        | exited st =>
          have hne : ofServer .error ≠ ofServer .info := by decide
          cases hj : s.joins <;> simp [hj, hrec, hne] at he
    have hempty : config.linkedProjects.isEmpty = true ↔
        ∀ dir, IsSearched s.toFilePath s.cwd params dir → ∀ found, discover s.fs dir = some found → found = [] := by
      rw [List.isEmpty_iff]
      constructor
      · intro he dir hd found hf
        cases hx : found with
        | nil => rfl
        | cons m t =>
          have := (hmem m).2 ⟨dir, hd, found, hf, by rw [hx]; simp⟩
          rw [he] at this
          cases this
      · intro hall
        cases hx : config.linkedProjects with
        | nil => rfl
        | cons m t =>
          obtain ⟨dir, hd, found, hf, hm⟩ := (hmem m).1 (by rw [hx]; simp)
          rw [hall dir hd found hf] at hm
          cases hm
    rw [← hempty]
    simp only [h2, if_true, List.filterMap_append, List.mem_append]
    by_cases he : config.linkedProjects.isEmpty = true
    · simp [he]
    · simp only [he]
      refine ⟨?_, fun h => absurd h (by simp)⟩
      rintro ((h | h) | h)
      · revert h; simp [ofServer]
      · simp at h
      · exact absurd h hdid

/-! ### Witnesses -/

def sampleSys : Sys where
  createFile path := path == "/tmp/log".toList
  parseLevel val := if val = "debug".toList then some (some .debug) else if val = "off".toList then some none else none
  accepts dirs _ r := if dirs = some "info".toList then r.level = .info || r.level = .error else r.level = .error

def sampleParams : InitializeParams := ⟨none, none, ⟨none, none, none⟩⟩

/-- The client opens the session and exits at once. -/
def rudeSession : Session where
  opening := some (some sampleParams)
  acknowledged := true
  cwd := some []
  toFilePath _ := none
  fs := ⟨fun _ => false, fun _ => none⟩
  iter paths := paths
  env := ⟨fun _ => some []⟩
  cfg := .default
  steps := [.message .exit fun _ => 0]
  records := [⟨.info, "ide".toList, []⟩]
  joins := true

def emptyEnviron : Environ := ⟨none, none, none, none⟩

/-- The hypotheses of `exit_without_shutdown_succeeds` are met. -/
theorem rude_session : LogUsable sampleSys emptyEnviron ∧ Opened rudeSession sampleParams ∧
    SaysExit rudeSession sampleParams ∧ ¬ AskedForShutdown rudeSession := by
  refine ⟨⟨by simp [emptyEnviron], by simp [emptyEnviron]⟩, ⟨rfl, rfl, [], .inr ⟨by simp [sampleParams], rfl⟩⟩,
    ⟨[], fun _ => 0, [], rfl, _, rfl⟩, ?_⟩
  rintro ⟨pre, id, cuts, mid, cuts', post, h⟩
  have hlen := congrArg List.length h
  simp [rudeSession] at hlen
  omega

/-- **C111.**  A process that fails says so on the standard error stream, whatever the log is set up to do, and a
process that goes on or succeeds does not. -/
theorem failure_is_printed (sys : Sys) (env : Environ) (s : Session) :
    Line.printed ∈ (main sys env s).stderr ↔ (main sys env s).status = some 101 := by
  have hlog : ∀ (l : Logger) (p : Process) (r : Record),
      Line.printed ∈ (p.log sys l r).stderr ↔ Line.printed ∈ p.stderr := by
    intro l p r
    unfold Process.log
    by_cases h : sys.accepts l.filter l.chalk r = true
    · simp only [h, if_true]
      cases l.file <;> cases l.chalk <;> simp
    · simp [h]
  have hemit : ∀ (l : Logger) (es : List Emit) (p : Process),
      Line.printed ∈ (es.foldl (Process.emit sys l) p).stderr ↔ Line.printed ∈ p.stderr := by
    intro l es
    induction es with
    | nil => intro p; rfl
    | cons e t ih =>
      intro p
      rw [List.foldl_cons, ih]
      cases e with
      | record r => exact hlog l p r
      | sent m => rfl
  unfold main
  cases hl : setupLogging sys env with
  | error e => simp
  | ok l =>
    simp only
    have hp := hemit l (runServer s).1 Process.new
    have hst := emit_status sys l Process.new (runServer s).1
    cases hr : (runServer s).2 with
    | running => simp only; rw [hp, hst]; simp [Process.new]
    | ok => simp only; rw [hp]; simp [Process.new]
    | error => simp
    | panic => simp

/-- **C111.**  So the status does not tell whether the client shut the server down. -/
theorem status_tells_no_shutdown :
    ¬ ∀ (sys : Sys) (env : Environ) (s : Session) (params : InitializeParams), LogUsable sys env → s.joins = true →
      Opened s params → SaysExit s params → ((main sys env s).status = some 0 ↔ AskedForShutdown s) := by
  intro h
  obtain ⟨h1, h2, h3, h4⟩ := rude_session
  exact h4 ((h sampleSys emptyEnviron rudeSession sampleParams h1 rfl h2 h3).1
    (exit_without_shutdown_succeeds _ _ _ _ h1 rfl h2 h3 h4))

/-- A session that ends as the protocol says. -/
def politeSession : Session :=
  { rudeSession with steps := [.message (.shutdown (.num 1) true) fun _ => 0, .message .exit fun _ => 0] }

example : AskedForShutdown politeSession ∧ (main sampleSys emptyEnviron politeSession).status = some 0 ∧
    (main sampleSys emptyEnviron politeSession).stdout = [.initializeResult, .message (.response (.num 1) .ok)] :=
  ⟨⟨[], .num 1, _, [], _, [], rfl⟩, by decide +kernel, by decide +kernel⟩

/-- A client that closes the connection instead. -/
example : (main sampleSys emptyEnviron { rudeSession with steps := [.disconnect] }).status = some 101 := by
  decide +kernel

/-- Failures that the log is not set up to contain are printed. -/
example : Line.printed ∈ (main { sampleSys with accepts := fun _ _ _ => false } emptyEnviron
      { rudeSession with steps := [.disconnect] }).stderr ∧
    Line.printed ∉ (main sampleSys emptyEnviron politeSession).stderr := by decide +kernel

/-- A client that has not exited yet. -/
example : (main sampleSys emptyEnviron { rudeSession with steps := [] }).status = none := by decide +kernel

/-- Without an `initialize` request there is no server. -/
example : ¬ (∃ params, Opened { rudeSession with opening := none } params) ∧
    (main sampleSys emptyEnviron { rudeSession with opening := none }).status = some 101 :=
  ⟨fun ⟨_, h, _⟩ => (by cases h), by decide +kernel⟩

/-- Logs that cannot be set up. -/
example : ¬ LogUsable sampleSys { emptyEnviron with raLogFile := some "/log".toList } ∧
    ¬ LogUsable sampleSys { emptyEnviron with chalkDebug := some "yes".toList } :=
  ⟨fun h => absurd (h.1 _ rfl) (by decide), fun h => absurd (h.2 _ rfl) (by decide)⟩

/-- The same session with the log in a file and on the standard error stream. -/
example : let env : Environ := { emptyEnviron with moveLsLog := some "info".toList }
    let env' : Environ := { env with raLogFile := some "/tmp/log".toList }
    LogUsable sampleSys env ∧ LogUsable sampleSys env' ∧
    (main sampleSys env rudeSession).stderr.length = 6 ∧ (main sampleSys env' rudeSession).stderr = [] ∧
    (main sampleSys env' rudeSession).file.length = 6 :=
  ⟨⟨by simp [emptyEnviron], by simp [emptyEnviron]⟩, ⟨by simp; decide, by simp [emptyEnviron]⟩, by decide +kernel,
    by decide +kernel, by decide +kernel⟩

/-- With `CHALK_DEBUG` everything is logged twice. -/
example : (main sampleSys { emptyEnviron with chalkDebug := some "off".toList } rudeSession).stderr.length = 2 := by
  decide +kernel

/-- The extension asks for six records and gets the one that is an error. -/
example : (∀ r, sampleSys.accepts none none r = true → r.level = .error) ∧
    logged sampleSys (ofExtension emptyEnviron) rudeSession = [ofServer .error] ∧
    (logged sampleSys { emptyEnviron with moveLsLog := (ofExtension emptyEnviron).rustLog } rudeSession).length = 6 :=
  ⟨by simp [sampleSys], by decide +kernel, by decide +kernel⟩

theorem eraseDups_nodup (n : Nat) : ∀ l : List Path, l.length ≤ n → l.eraseDups.Nodup := by
  induction n with
  | zero => intro l hl; rw [List.length_eq_zero_iff.1 (Nat.le_zero.1 hl)]; simp
  | succ n ih =>
    intro l hl
    cases l with
    | nil => simp
    | cons a t =>
      rw [List.eraseDups_cons, List.nodup_cons]
      refine ⟨fun h => ?_, ih _ (Nat.le_trans (List.length_filter_le _ _) (by simpa using hl))⟩
      have := List.mem_eraseDups.1 h
      simp at this

/-- The rude session in a directory where every name exists. -/
def projectSession : Session := { rudeSession with fs := ⟨fun _ => true, fun _ => none⟩, iter := List.eraseDups }

/-- The hypotheses of `missing_project_is_logged` are met by a session without and by one with a project. -/
example : let s := { rudeSession with iter := List.eraseDups }
    (∀ l : List Path, l.eraseDups.Nodup ∧ ∀ m, m ∈ l.eraseDups ↔ m ∈ l) ∧
    LogUsable sampleSys emptyEnviron ∧
    (∀ dirs chalk r, r.level = .error → sampleSys.accepts dirs chalk r = true) ∧
    Opened s sampleParams ∧ ofServer .error ∉ s.records ∧ (main sampleSys emptyEnviron s).status ≠ some 101 ∧
    ofServer .error ∈ logged sampleSys emptyEnviron s ∧
    Opened projectSession sampleParams ∧ ofServer .error ∉ projectSession.records ∧
    (main sampleSys emptyEnviron projectSession).status ≠ some 101 ∧
    ofServer .error ∉ logged sampleSys emptyEnviron projectSession := by
  refine ⟨fun l => ⟨eraseDups_nodup _ l (Nat.le_refl _), fun m => List.mem_eraseDups⟩, rude_session.1, ?_,
    ⟨rfl, rfl, [], .inr ⟨by simp [sampleParams], rfl⟩⟩, by decide, by decide +kernel, by decide +kernel,
    ⟨rfl, rfl, [], .inr ⟨by simp [sampleParams], rfl⟩⟩, by decide, by decide +kernel, by decide +kernel⟩
  intro dirs chalk r hr
  simp [sampleSys, hr]

end Verif.Process
