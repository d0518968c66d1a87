import Verif.Stdx.Model

set_option autoImplicit false

/-!
Model of `streaming_output`, `/repo/crates/stdx/src/process.rs`, with the unix `read2` (62-128).
The windows version is in `ProcessWindows.lean`, the wasm version is `todo!()`; `spawn` and `wait` (20-22, 51-52) are not
modelled and succeed here.  Bytes are numbers.
-/

namespace Verif.Stdx

/-! `String::from_utf8_lossy`. -/

/-- The bytes that may follow the first byte of a UTF-8 sequence, as ranges; `none` for a byte no
sequence starts with. -/
def continuations (b : Nat) : Option (List (Nat × Nat)) :=
  if b < 0x80 then some []
  else if 0xC2 ≤ b ∧ b ≤ 0xDF then some [(0x80, 0xBF)]
  else if b = 0xE0 then some [(0xA0, 0xBF), (0x80, 0xBF)]
  else if b = 0xED then some [(0x80, 0x9F), (0x80, 0xBF)]
  else if 0xE1 ≤ b ∧ b ≤ 0xEF then some [(0x80, 0xBF), (0x80, 0xBF)]
  else if b = 0xF0 then some [(0x90, 0xBF), (0x80, 0xBF), (0x80, 0xBF)]
  else if 0xF1 ≤ b ∧ b ≤ 0xF3 then some [(0x80, 0xBF), (0x80, 0xBF), (0x80, 0xBF)]
  else if b = 0xF4 then some [(0x80, 0x8F), (0x80, 0xBF), (0x80, 0xBF)]
  else none

/-- The longest prefix of the bytes that fits the ranges. -/
def matching : List (Nat × Nat) → List Nat → List Nat
  | (lo, hi) :: rs, b :: bs => if lo ≤ b ∧ b ≤ hi then b :: matching rs bs else []
  | _, _ => []

/-- The character of a complete sequence. -/
def assemble (b : Nat) (conts : List Nat) : Char :=
  let lead := match conts.length with
    | 0 => b
    | 1 => b - 0xC0
    | 2 => b - 0xE0
    | _ => b - 0xF0
  Char.ofNat (conts.foldl (fun acc c => acc * 64 + (c - 0x80)) lead)

/-- `String::from_utf8_lossy`: every maximal part that is not a sequence becomes U+FFFD. -/
def lossy : List Nat → Text
  | [] => []
  | b :: bs =>
    match continuations b with
    | none => '�' :: lossy bs
    | some rs =>
      let m := matching rs bs
      (if m.length = rs.length then assemble b m else '�') :: lossy (bs.drop m.length)
termination_by bs => bs.length
decreasing_by all_goals (simp_wf; try omega)

/-! The callback. -/

/-- What has been collected of one of the two outputs: `stdout` or `stderr` of process.rs:16-17, and
the lines passed to the callback. -/
structure Collected where
  bytes : List Nat
  lines : List Text
  deriving DecidableEq, Repr

/-- `iter().rposition`. -/
def rposition (p : Nat → Bool) : List Nat → Option Nat
  | [] => none
  | b :: bs =>
    match rposition p bs with
    | some i => some (i + 1)
    | none => if p b then some 0 else none

/-- The closure of process.rs:24-50: the data left and what is collected. -/
def onData (data : List Nat) (eof : Bool) (dst : Collected) : List Nat × Collected :=
  let idx :=
    if eof then some data.length
    else match rposition (· == 10) data with
      | some i => some (i + 1)
      | none => none
  match idx with
  | none => (data, dst)
  | some idx =>
    let newLines := data.take idx
    (data.drop idx, ⟨dst.bytes ++ newLines, dst.lines ++ lines (lossy newLines)⟩)

/-! `read2`. -/

inductive Pipe where
  | out
  | err
  deriving DecidableEq, Repr

/-- The local variables of `read2`, process.rs:77-90, what has been collected, and what the process has
yet to deliver on each pipe. -/
structure Read2 where
  outDone : Bool
  errDone : Bool
  out : List Nat
  err : List Nat
  fd0 : Pipe
  fd1 : Pipe
  revents0 : Bool
  revents1 : Bool
  nfds : Nat
  errfd : Nat
  stdout : Collected
  stderr : Collected
  pendingOut : List Nat
  pendingErr : List Nat

/-- The state at the start, for a process that writes `out` and `err`. -/
def Read2.init (out err : List Nat) : Read2 :=
  ⟨false, false, [], [], .out, .err, false, false, 2, 1, ⟨[], []⟩, ⟨[], []⟩, out, err⟩

/-- What `read_to_end` on a non-blocking pipe finds: `n` further bytes, then the end if the other side
is `closed` and everything has been read, or nothing more for now; or it fails. -/
structure Reading where
  n : Nat
  closed : Bool
  fails : Bool

/-- The bytes read, the bytes left, and whether the end was reached; `none` on failure. -/
def Reading.read (r : Reading) (pending : List Nat) : Option (List Nat × List Nat × Bool) :=
  if r.fails then none
  else some (pending.take r.n, pending.drop r.n, r.closed && (pending.drop r.n).isEmpty)

/-- What the operating system does in one turn of the loop. -/
inductive Turn where
  | interrupted
  | pollFails
  | ready (revents0 revents1 : Bool) (errReading outReading : Reading)

/-- The file descriptors polled, process.rs:94. -/
def Read2.polled (s : Read2) : List Pipe := [s.fd0, s.fd1].take s.nfds

/-- process.rs:117-121, the error pipe. -/
def Read2.turnErr (s : Read2) (r : Reading) : Option Read2 :=
  let revents := if s.errfd = 0 then s.revents0 else s.revents1
  let read : Option Read2 :=
    if !s.errDone && revents then
      match r.read s.pendingErr with
      | none => none
      | some (bytes, rest, eof) =>
        let s := { s with err := s.err ++ bytes, pendingErr := rest }
        some (if eof then { s with errDone := true, nfds := s.nfds - 1 } else s)
    else some s
  read.map fun s =>
    let (err, stderr) := onData s.err s.errDone s.stderr
    { s with err, stderr }

/-- process.rs:122-128, the output pipe. -/
def Read2.turnOut (s : Read2) (r : Reading) : Option Read2 :=
  let read : Option Read2 :=
    if !s.outDone && s.revents0 then
      match r.read s.pendingOut with
      | none => none
      | some (bytes, rest, eof) =>
        let s := { s with out := s.out ++ bytes, pendingOut := rest }
        some (if eof then { s with outDone := true, fd0 := .err, errfd := 0, nfds := s.nfds - 1 } else s)
    else some s
  read.map fun s =>
    let (out, stdout) := onData s.out s.outDone s.stdout
    { s with out, stdout }

/-- One turn of the loop, process.rs:92-128; `none` when the function returns an error.  `poll` sets
`revents` of the first `nfds` entries only. -/
def Read2.turn (s : Read2) : Turn → Option Read2
  | .interrupted => some s
  | .pollFails => none
  | .ready r0 r1 er or =>
    let s := { s with revents0 := if 1 ≤ s.nfds then r0 else s.revents0,
                      revents1 := if 2 ≤ s.nfds then r1 else s.revents1 }
    (s.turnErr er).bind fun s => s.turnOut or

/-- The loop, for the turns of a schedule: the state in which the schedule ends, whether the loop has
ended then or not.  `none` when the function returns an error. -/
def Read2.run (s : Read2) : List Turn → Option Read2
  | [] => some s
  | t :: ts => if s.nfds > 0 then (s.turn t).bind fun s => s.run ts else some s

end Verif.Stdx
