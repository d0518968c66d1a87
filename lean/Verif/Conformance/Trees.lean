import Verif.Parser.Sink

/-!
Conformance check of the parser model, not part of any proof: prints trees the way rowan does and
compares them with the expected trees of /repo/crates/syntax/test_data.  Run with
`lake env lean --run Verif/Conformance/Trees.lean $(ls /repo/crates/syntax/test_data/parser/*/*.move | sed s/.move//)`.
-/

set_option autoImplicit false

namespace Verif.Conformance

open Verif Verif.Parser
-- prints the tree the way rowan's alternate Debug does: children at offset
def dbgText (t : Text) : String := (String.ofList t).quote
-- returns lines and the end offset
def dump : Green → Nat → Nat → (String × Nat)
  | .nil, _, off => ("", off)
  | .leaf i k t, n, off =>
    let (s, o) := dump i n off
    let e := o + byteLen t
    (s ++ String.ofList (List.replicate (2*n) ' ') ++ s!"{k.debugName}@{o}..{e} {dbgText t}\n", e)
  | .node i k c, n, off =>
    let (s, o) := dump i n off
    let (s2, e) := dump c (n+1) o
    (s ++ String.ofList (List.replicate (2*n) ' ') ++ s!"{k.debugName}@{o}..{e}\n" ++ s2, e)
def debugDump (text : String) : String :=
  match parse text.toList with
  | .ok k t errs => (dump (.node .nil k t) 0 0).1 ++ String.join (errs.map fun e => s!"error {e.offset}..{e.offset}: {e.msg}\n")
  | .panic w => "PANIC " ++ reprStr w
  | .outOfFuel => "FUEL"
end Verif.Conformance

open Verif.Conformance in
def main (args : List String) : IO Unit := do
  for a in args do
    let t ← IO.FS.readFile (a ++ ".move")
    let e ← IO.FS.readFile (a ++ ".txt")
    let d := debugDump t
    if d == e then IO.println s!"same {a}" else do
      IO.println s!"DIFF {a}"; IO.FS.writeFile "/tmp/tree.txt" d
