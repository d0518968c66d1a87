import Verif.Parser.Event

set_option autoImplicit false

/-!
The parser of `/repo/crates/parser/src/parser.rs` as programs over a small set of primitive
operations, and their execution.

A `Prog` is the text of a grammar function: what it asks of the parser and what it does with the
answers.  Loops and recursive functions are named by `Fn` and invoked by `call`; their bodies are
in `Verif.Parser.Grammar`.  `run` executes a program on a machine; the machine of the Rust code is
`lowLevel`.
-/

namespace Verif.Parser

/-- crates/parser/src/grammar/expressions.rs:11-15, `StmtWithSemi`. -/
inductive StmtWithSemi where
  | yes | no | optional
  deriving DecidableEq, Repr

/-- The loops and the recursive functions of the grammar. -/
inductive Fn where
  /-- parser.rs:233-238 -/
  | skipUntil (endTokens : TokenSet)
  /-- grammar.rs:65-77 -/
  | rootLoop
  /-- items.rs:87-89 -/
  | addressItemLoop
  /-- items.rs:98-100 -/
  | itemLoop
  /-- items/adt.rs:46-55 -/
  | recordFieldLoop
  /-- params.rs:14-35 -/
  | paramLoop
  /-- types.rs:21-30 -/
  | type_
  /-- paths.rs:33-44 -/
  | pathLoop (qual : Completed)
  /-- generic_params.rs:17-22 -/
  | genericParamLoop
  /-- generic_params.rs:69-73 -/
  | boundsLoop
  /-- patterns.rs:49-66 -/
  | pattern
  /-- patterns.rs:30-43 -/
  | tuplePatLoop (hasComma hasPat hasRest : Bool)
  /-- patterns.rs:115-144 -/
  | recordPatLoop
  /-- grammar.rs:34-36 -/
  | blockLoop
  /-- expressions.rs:260-266 -/
  | exprBlockLoop
  /-- expressions.rs:144-164 -/
  | stmt (withSemi : StmtWithSemi)
  /-- expressions.rs:22-40 -/
  | exprBp (bp : Nat)
  /-- expressions.rs:24-38 -/
  | exprBpLoop (bp : Nat) (lhs : Completed)
  /-- expressions.rs:43-49 -/
  | postfixLoop (lhs : Completed)
  /-- expressions.rs:76-88 -/
  | argLoop
  /-- expressions.rs:222-254 -/
  | recordExprLoop
  /-- expressions/atom.rs:149-169 -/
  | parenLoop
  deriving Repr

/-- What the function returns.  A loop with variables returns their final values; `parenLoop`
returns whether the loop ended by its condition (`true`) or by the `return` in it. -/
@[reducible] def Fn.Res : Fn → Type
  | .tuplePatLoop _ _ _ => Bool × Bool × Bool
  | .exprBp _ => Option Completed
  | .exprBpLoop _ _ => Completed
  | .postfixLoop _ => Completed
  | .parenLoop => Bool
  | _ => Unit

/-- Why a run stops with a panic. -/
inductive Panic where
  /-- the lexer met a character it has no token for (`todo!()`), or sliced off a boundary -/
  | lexer
  /-- "the parser seems stuck" (parser.rs:63) -/
  | stuck
  /-- a lookahead the lexer does not offer (lexer.rs:37, parser.rs:60) -/
  | lookahead
  /-- an `assert!` of the grammar, or of `Parser::bump` -/
  | assertion (what : String)
  /-- `unreachable!()` or an index out of range in the event list -/
  | events
  deriving DecidableEq, Repr

/-- A program of the parser with result `α`. -/
inductive Prog (α : Type) where
  | pure (a : α)
  | panic (why : Panic)
  | current (k : Kind → Prog α)
  | currentText (k : Text → Prog α)
  | nth (n : Nat) (k : Kind → Prog α)
  | doBump (kind : Kind) (k : Prog α)
  | start (k : Marker → Prog α)
  | complete (m : Marker) (kind : Kind) (k : Completed → Prog α)
  | abandon (m : Marker) (k : Prog α)
  | precede (c : Completed) (k : Marker → Prog α)
  | error (msg : String) (k : Prog α)
  | call (f : Fn) (k : f.Res → Prog α)

namespace Prog

def bind {α β : Type} : Prog α → (α → Prog β) → Prog β
  | .pure a, f => f a
  | .panic w, _ => .panic w
  | .current k, f => .current fun x => (k x).bind f
  | .currentText k, f => .currentText fun x => (k x).bind f
  | .nth n k, f => .nth n fun x => (k x).bind f
  | .doBump kind k, f => .doBump kind (k.bind f)
  | .start k, f => .start fun m => (k m).bind f
  | .complete m kind k, f => .complete m kind fun c => (k c).bind f
  | .abandon m k, f => .abandon m (k.bind f)
  | .precede c k, f => .precede c fun m => (k m).bind f
  | .error msg k, f => .error msg (k.bind f)
  | .call g k, f => .call g fun r => (k r).bind f

instance : Monad Prog where
  pure := .pure
  bind := .bind

end Prog

/-- The outcome of a run.  `outOfFuel` is not an outcome of the Rust code; `parse_terminates`
shows that it does not occur. -/
inductive Out (S α : Type) where
  | ok (a : α) (s : S)
  | panic (why : Panic)
  | outOfFuel

def Out.bind {S α β : Type} (o : Out S α) (f : α → S → Out S β) : Out S β :=
  match o with
  | .ok a s => f a s
  | .panic w => .panic w
  | .outOfFuel => .outOfFuel

/-- The primitive operations on a parser state. -/
structure Machine (S : Type) where
  current : S → Kind
  currentText : S → Out S Text
  nth : Nat → S → Out S Kind
  doBump : Kind → S → Out S Unit
  start : S → Out S Marker
  complete : Marker → Kind → S → Out S Completed
  abandon : Marker → S → Out S Unit
  precede : Completed → S → Out S Marker
  error : String → S → Out S Unit

/-- Execution of a program, given the execution of the functions it calls. -/
def run {S α : Type} (M : Machine S) (callee : (f : Fn) → S → Out S f.Res) : Prog α → S → Out S α
  | .pure a, s => .ok a s
  | .panic w, _ => .panic w
  | .current k, s => run M callee (k (M.current s)) s
  | .currentText k, s => (M.currentText s).bind fun t s' => run M callee (k t) s'
  | .nth n k, s => (M.nth n s).bind fun x s' => run M callee (k x) s'
  | .doBump kind k, s => (M.doBump kind s).bind fun _ s' => run M callee k s'
  | .start k, s => (M.start s).bind fun m s' => run M callee (k m) s'
  | .complete m kind k, s => (M.complete m kind s).bind fun c s' => run M callee (k c) s'
  | .abandon m k, s => (M.abandon m s).bind fun _ s' => run M callee k s'
  | .precede c k, s => (M.precede c s).bind fun m s' => run M callee (k m) s'
  | .error msg k, s => (M.error msg s).bind fun _ s' => run M callee k s'
  | .call f k, s => (callee f s).bind fun r s' => run M callee (k r) s'

/-- Execution of the functions, with calls nested at most `n` deep. -/
def callN {S : Type} (M : Machine S) (body : (f : Fn) → Prog f.Res) :
    Nat → (f : Fn) → S → Out S f.Res
  | 0, _, _ => .outOfFuel
  | n + 1, f, s => run M (callN M body n) (body f) s

/-! The machine of parser.rs. -/

/-- parser.rs:23-27, `Parser`. -/
structure PState where
  lexer : Lexer.Lexer
  events : List Event
  steps : Nat

/-- The limit of parser.rs:63. -/
def stepLimit : Nat := 10000

/-- parser.rs:59-67, `nth`. -/
def pNth (n : Nat) (s : PState) : Out PState Kind :=
  if n ≤ 3 then
    if s.steps ≤ stepLimit then
      if n ≤ 2 then
        match s.lexer.lookaheadNth n with
        | some t => .ok t.kind { s with steps := s.steps + 1 }
        | none => .panic .lexer
      else .panic .lookahead
    else .panic .stuck
  else .panic .lookahead

/-- parser.rs:263-269, `do_bump` with `n_raw_tokens = 1`, the only value in use. -/
def pDoBump (kind : Kind) (s : PState) : Out PState Unit :=
  match s.lexer.bump with
  | some lx => .ok () { s with lexer := lx, events := s.events ++ [.token kind 1] }
  | none => .panic .lexer

/-- The operations of parser.rs and marker.rs on `PState`. -/
def lowLevel : Machine PState where
  current s := s.lexer.token.kind
  currentText s :=
    match s.lexer.currentText with
    | some t => .ok t s
    | none => .panic .lexer
  nth := pNth
  doBump := pDoBump
  start s := let (m, evs) := evStart s.events; .ok m { s with events := evs }
  complete m kind s :=
    match evComplete m kind s.events with
    | some (c, evs) => .ok c { s with events := evs }
    | none => .panic .events
  abandon m s :=
    match evAbandon m s.events with
    | some evs => .ok () { s with events := evs }
    | none => .panic .events
  precede c s :=
    match evPrecede c s.events with
    | some (m, evs) => .ok m { s with events := evs }
    | none => .panic .events
  error msg s := .ok () { s with events := s.events ++ [.error msg] }

end Verif.Parser
