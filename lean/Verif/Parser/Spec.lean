import Verif.Parser.Sink
import Verif.Lexer.Spec

set_option autoImplicit false

/-!
The vocabulary of the theorems about syntax trees: leaves, text and node kinds of a tree, balanced
calls, positions between tokens.
-/

namespace Verif.Parser

/-- The leaves of a tree from left to right. -/
def Green.leaves : Green → List (Kind × Text)
  | .nil => []
  | .leaf init k t => init.leaves ++ [(k, t)]
  | .node init _ kids => init.leaves ++ kids.leaves

/-- The text of a tree. -/
def Green.text (g : Green) : Text := (g.leaves.map Prod.snd).flatten

/-- The kinds of the inner nodes of a tree. -/
def Green.nodeKinds : Green → List Kind
  | .nil => []
  | .leaf init _ _ => init.nodeKinds
  | .node init k kids => init.nodeKinds ++ k :: kids.nodeKinds

/-- Leaves and the tokens of the text correspond one to one, with the same texts and the same
kinds, except that the parser makes the kind of an address of some number tokens. -/
inductive SameTokens : List (Kind × Text) → List (Kind × Text) → Prop where
  | nil : SameTokens [] []
  | snoc {ls ts : List (Kind × Text)} {kl kt : Kind} {u : Text} :
      SameTokens ls ts → (kl = kt ∨ (kt = .INTEGER_NUMBER ∧ kl = .DIEM_ADDRESS)) →
      SameTokens (ls ++ [(kl, u)]) (ts ++ [(kt, u)])

/-- Calls on a tree builder in which every started node is finished, in the right order. -/
inductive Balanced : List Op → Prop where
  | nil : Balanced []
  | token {os : List Op} (k : Kind) (n : Nat) : Balanced os → Balanced (os ++ [.token k n])
  | error {os : List Op} (m : String) : Balanced os → Balanced (os ++ [.error m])
  | node {os inner : List Op} (k : Kind) : Balanced os → Balanced inner →
      Balanced (os ++ .startNode k :: (inner ++ [.finishNode]))

/-- `n` is the offset of a position between two tokens of `ts`, before the first or after the
last. -/
def AtBoundary (ts : List (Kind × Text)) (n : Nat) : Prop :=
  ∃ before after, ts = before ++ after ∧ n = byteLen (before.map Prod.snd).flatten

end Verif.Parser
