set_option autoImplicit false

/-!
The progress that is shown during a download: `/repo/editors/code/src/components/net.ts:74-138`.

JavaScript computes with floating point numbers.  The percentage `Math.round((readBytes / totalBytes) * 100)` is a
parameter for a length other than zero; what is used of it is `Contract` in `Progress.lean`.
-/

namespace Verif.Editor.Progress

/-- The numbers that occur. -/
inductive Num where
  | fin (n : Int)
  | infinity
  | nan
  deriving DecidableEq, Repr

/-- `a - b` for numbers that occur: a positive infinity minus itself is not a number. -/
def Num.sub : Num → Num → Num
  | .fin a, .fin b => .fin (a - b)
  | .infinity, .fin _ => .infinity
  | _, _ => .nan

/-- `a !== b`: not a number differs from everything, itself included. -/
def Num.differs : Num → Num → Bool
  | .fin a, .fin b => a != b
  | .infinity, .infinity => false
  | _, _ => true

/-- `Number(res.headers.get('content-length'))` and the assertion behind it, net.ts:129-130: a missing header is
`null`, which becomes 0; a header that is no number makes the assertion fail. -/
inductive Header where
  | missing
  | length (n : Nat)
  | noNumber

def Header.totalBytes : Header → Option Nat
  | .missing => some 0
  | .length n => some n
  | .noNumber => none

/-- net.ts:96, the new percentage; `round` is the value for a length other than zero. -/
def percentage (round : Nat → Nat → Nat) (read total : Nat) : Num :=
  if total = 0 then (if read = 0 then .nan else .infinity) else .fin (round read total)

/-- One call of `progress.report`, net.ts:98-101. -/
structure Report where
  message : Num
  increment : Num
  deriving DecidableEq, Repr

/-- `readBytes`, net.ts:134; `lastPercentage`, net.ts:89; and what was reported. -/
structure State where
  read : Nat
  last : Num
  reports : List Report

/-- A piece of data arrives: net.ts:135-138 and 95-105. -/
def State.chunk (round : Nat → Nat → Nat) (total : Nat) (s : State) (length : Nat) : State :=
  let read := s.read + length
  let new := percentage round read total
  if new.differs s.last then ⟨read, new, s.reports ++ [⟨new, new.sub s.last⟩]⟩ else { s with read := read }

/-- The whole download: `none` when the assertion fails. -/
def reports (round : Nat → Nat → Nat) (header : Header) (chunks : List Nat) : Option (List Report) :=
  match header.totalBytes with
  | none => none
  | some total => some (chunks.foldl (State.chunk round total) ⟨0, .fin 0, []⟩).reports

end Verif.Editor.Progress
