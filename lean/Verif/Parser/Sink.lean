import Verif.Parser.Grammar

set_option autoImplicit false

/-!
From events to the syntax tree: `/repo/crates/syntax/src/parsing.rs`,
`/repo/crates/syntax/src/parsing/text_tree_sink.rs`, `/repo/crates/syntax/src/syntax_node.rs`,
and the part of rowan's `GreenNodeBuilder` they use.
-/

namespace Verif.Parser

/-- A sequence of green tree elements (rowan's `GreenNode` children): leaves with their text and
nodes with their children, the last element outermost. -/
inductive Green where
  | nil
  | leaf (init : Green) (kind : Kind) (text : Text)
  | node (init : Green) (kind : Kind) (kids : Green)
  deriving DecidableEq, Repr

/-- rowan's `GreenNodeBuilder` (external).  rowan keeps one list of children and the index of
the first child of each open node; here an open node carries the elements before it. -/
structure Builder where
  parents : List (Kind × Green)
  children : Green
  deriving DecidableEq, Repr

/-- rowan, `GreenNodeBuilder::token`. -/
def Builder.token (b : Builder) (kind : Kind) (text : Text) : Builder :=
  { b with children := .leaf b.children kind text }

/-- rowan, `GreenNodeBuilder::start_node`. -/
def Builder.startNode (b : Builder) (kind : Kind) : Builder :=
  { parents := (kind, b.children) :: b.parents, children := .nil }

/-- rowan, `GreenNodeBuilder::finish_node`; `none` is the `unwrap` of an empty stack. -/
def Builder.finishNode (b : Builder) : Option Builder :=
  match b.parents with
  | [] => none
  | (kind, outer) :: rest => some { parents := rest, children := .node outer kind b.children }

/-- rowan, `GreenNodeBuilder::finish`: exactly one node must have been built. -/
def Builder.finish (b : Builder) : Option (Kind × Green) :=
  match b.children with
  | .node .nil kind kids => some (kind, kids)
  | _ => none

/-- crates/syntax/src/syntax_error.rs:9, `SyntaxError` with the empty range of `new_at_offset`
(25-27): the message and the offset. -/
structure SyntaxError where
  msg : String
  offset : Nat
  deriving DecidableEq, Repr

/-- text_tree_sink.rs:24-28, `State`. -/
inductive SinkState where
  | pendingStart | normal | pendingFinish
  deriving DecidableEq, Repr

/-- text_tree_sink.rs:15-22, `TextTreeSink`, with the errors of `SyntaxTreeBuilder`
(syntax_node.rs:27-30). -/
structure Sink where
  text : Text
  tokens : List Lexer.Token
  textPos : Nat
  tokenPos : Nat
  state : SinkState
  inner : Builder
  errors : List SyntaxError

/-- text_tree_sink.rs:98-107, `TextTreeSink::new`. -/
def Sink.new (text : Text) (tokens : List Lexer.Token) : Sink :=
  ⟨text, tokens, 0, 0, .pendingStart, ⟨[], .nil⟩, []⟩

/-- text_tree_sink.rs:138-144, `do_token`; `none` when the slice panics. -/
def Sink.doToken (s : Sink) (kind : Kind) (len nTokens : Nat) : Option Sink :=
  (Lexer.sliceRange s.text s.textPos (s.textPos + len)).map fun text =>
    { s with textPos := s.textPos + len, tokenPos := s.tokenPos + nTokens,
             inner := s.inner.token kind text }

/-- text_tree_sink.rs:121-128, `eat_trivias`; the fuel is the number of tokens. -/
def Sink.eatTriviasFuel : Nat → Sink → Option Sink
  | 0, s => some s
  | fuel + 1, s =>
    match s.tokens[s.tokenPos]? with
    | none => some s
    | some token =>
      if !token.kind.isTrivia then some s
      else (s.doToken token.kind token.len 1).bind (eatTriviasFuel fuel)

def Sink.eatTrivias (s : Sink) : Option Sink := s.eatTriviasFuel s.tokens.length

/-- text_tree_sink.rs:130-136, `eat_n_trivias`. -/
def Sink.eatNTrivias : Nat → Sink → Option Sink
  | 0, s => some s
  | n + 1, s =>
    match s.tokens[s.tokenPos]? with
    | none => none
    | some token =>
      if token.kind.isTrivia then (s.doToken token.kind token.len 1).bind (eatNTrivias n)
      else none

/-- `self.inner.finish_node()`. -/
def Sink.innerFinish (s : Sink) : Option Sink :=
  s.inner.finishNode.map fun b => { s with inner := b }

/-- text_tree_sink.rs:31-47, `token`. -/
def Sink.token (s : Sink) (kind : Kind) (nTokens : Nat) : Option Sink :=
  let s0 : Sink := { s with state := .normal }
  (match s.state with
    | .pendingStart => none
    | .pendingFinish => s0.innerFinish
    | .normal => some s0).bind fun s1 =>
  (if s1.tokenPos ≠ 0 then s1.eatTrivias else some s1).bind fun s2 =>
  if s2.tokenPos + nTokens ≤ s2.tokens.length then
    let len := (((s2.tokens.drop s2.tokenPos).take nTokens).map Lexer.Token.len).sum
    s2.doToken kind len nTokens
  else none

/-- text_tree_sink.rs:49-82, `start_node`. -/
def Sink.startNode (s : Sink) (kind : Kind) : Option Sink :=
  let s0 : Sink := { s with state := .normal }
  match s.state with
  | .pendingStart => some { s0 with inner := s0.inner.startNode kind }
  | .pendingFinish => s0.innerFinish.bind go
  | .normal => go s0
where
  go (s1 : Sink) : Option Sink :=
    if s1.tokenPos ≤ s1.tokens.length then
      let n := ((s1.tokens.drop s1.tokenPos).takeWhile (·.kind.isTrivia)).length
      (Sink.eatNTrivias n s1).map fun s2 => { s2 with inner := s2.inner.startNode kind }
    else none

/-- text_tree_sink.rs:84-90, `finish_node`. -/
def Sink.finishNode (s : Sink) : Option Sink :=
  let s0 : Sink := { s with state := .pendingFinish }
  match s.state with
  | .pendingStart => none
  | .pendingFinish => s0.innerFinish
  | .normal => some s0

/-- text_tree_sink.rs:92-94, `error`, and syntax_node.rs:61-63. -/
def Sink.error (s : Sink) (msg : String) : Sink :=
  { s with errors := s.errors ++ [⟨msg, s.textPos⟩] }

/-- text_tree_sink.rs:109-119, `finish`. -/
def Sink.finish (s : Sink) : Option ((Kind × Green) × List SyntaxError) :=
  let s0 : Sink := { s with state := .normal }
  match s.state with
  | .pendingFinish =>
    s0.eatTrivias.bind fun s1 => s1.innerFinish.bind fun s2 =>
    s2.inner.finish.map fun tree => (tree, s2.errors)
  | _ => none

/-- The calls made by `event::process` on the sink. -/
def Sink.op (s : Sink) : Op → Option Sink
  | .startNode kind => s.startNode kind
  | .finishNode => s.finishNode
  | .token kind n => s.token kind n
  | .error msg => some (s.error msg)

def Sink.ops : List Op → Sink → Option Sink
  | [], s => some s
  | o :: os, s => (s.op o).bind (ops os)

/-- The outcome of parsing a text. -/
inductive Parsed where
  | ok (kind : Kind) (tree : Green) (errors : List SyntaxError)
  | panic (why : Panic)
  | outOfFuel
  deriving DecidableEq, Repr

/-- crates/parser/src/lib.rs:38-44, `parse_with_lexer`, on a fresh lexer
(crates/syntax/src/parsing.rs:9-10).  `depth` bounds the nesting of calls. -/
def parseEvents (depth : Nat) (text : Text) : Out PState Unit :=
  match Lexer.new text with
  | none => .panic .lexer
  | some lx => run lowLevel (callN lowLevel body depth) root ⟨lx, [], 0⟩

/-- crates/syntax/src/parsing.rs:8-22, `parse_text`; the assertion on the root kind is
lib.rs:127. -/
def parseWithDepth (depth : Nat) (text : Text) : Parsed :=
  match parseEvents depth text with
  | .panic w => .panic w
  | .outOfFuel => .outOfFuel
  | .ok _ s =>
    match process s.events with
    | none => .panic .events
    | some ops =>
      match (Sink.new text s.lexer.allTokens).ops ops with
      | none => .panic .events
      | some sink =>
        match sink.finish with
        | none => .panic .events
        | some ((kind, tree), errors) =>
          if kind = .SOURCE_FILE then .ok kind tree errors else .panic .events

/-- A bound for the nesting of calls and for the number of operations; `parse_terminates` shows that
it is never reached. -/
def maxDepth (text : Text) : Nat := 200 * (stepLimit + 1 + byteLen text) + 32

/-- crates/syntax/src/lib.rs:117-129, `SourceFile::parse`. -/
def parse (text : Text) : Parsed := parseWithDepth (maxDepth text) text

end Verif.Parser
