import Verif.Util.Map
import Verif.Edits.Model

/-!
Model of `crates/move_language_server/src/diagnostics.rs` (`DiagnosticCollection`).
-/

namespace Verif.Diagnostics

open Verif.Edits (Range)

/-- `lsp_types::Diagnostic`; the fields not compared by the code (code, code description,
related information, tags, data) are folded into `rest`. -/
structure Diagnostic where
  range : Range
  severity : Option Nat
  source : Option String
  message : List Char
  rest : List Char
deriving DecidableEq, Repr

/-- `are_diagnostics_equal`, diagnostics.rs:98-103. -/
def areDiagnosticsEqual (l r : Diagnostic) : Bool :=
  l.source == r.source && l.severity == r.severity && l.range == r.range && l.message == r.message

/-- `Fix`, diagnostics.rs:27-31: a range and an action; actions are opaque. -/
structure Fix where
  range : Range
  action : Nat
deriving DecidableEq, Repr

/-- `DiagnosticCollection`, diagnostics.rs:17-25.  File ids are numbers. -/
structure Collection where
  native : AMap Nat (List Diagnostic)
  check : AMap Nat (List Diagnostic)
  checkFixes : AMap Nat (List Fix)
  changes : List Nat
deriving Repr

/-- `DiagnosticCollection::default()`. -/
def Collection.empty : Collection := ⟨[], [], [], []⟩

/-- `HashSet::insert`. -/
def insertSet (s : List Nat) (f : Nat) : List Nat := if f ∈ s then s else s ++ [f]

/-- `clear_check`, diagnostics.rs:34-37. -/
def Collection.clearCheck (c : Collection) : Collection :=
  { c with checkFixes := [], check := [], changes := c.check.keys.foldl insertSet c.changes }

/-- `add_check_diagnostic`, diagnostics.rs:39-59.  On the early return the entry already
existed (it contains an equal diagnostic), so `or_default` left no trace. -/
def Collection.addCheckDiagnostic (c : Collection) (f : Nat) (d : Diagnostic) (fixes : List Nat) :
    Collection :=
  let diagnostics := (c.check.get f).getD []
  if diagnostics.any (fun e => areDiagnosticsEqual e d) then c
  else
    { c with
      checkFixes := c.checkFixes.insert f
        ((c.checkFixes.get f).getD [] ++ fixes.map (fun a => ⟨d.range, a⟩))
      check := c.check.insert f (diagnostics ++ [d])
      changes := insertSet c.changes f }

/-- The condition of `set_native_diagnostics`, diagnostics.rs:67-71: same length and pairwise
equal. -/
def sameDiagnostics (new existing : List Diagnostic) : Bool :=
  existing.length == new.length && (new.zip existing).all (fun p => areDiagnosticsEqual p.1 p.2)

/-- `set_native_diagnostics`, diagnostics.rs:61-79. -/
def Collection.setNativeDiagnostics (c : Collection) (f : Nat) (ds : List Diagnostic) : Collection :=
  let update := { c with native := c.native.insert f ds, changes := insertSet c.changes f }
  match c.native.get f with
  | some existing => if sameDiagnostics ds existing then c else update
  | none => update

/-- `diagnostics_for`, diagnostics.rs:81-88. -/
def Collection.diagnosticsFor (c : Collection) (f : Nat) : List Diagnostic :=
  (c.native.get f).getD [] ++ (c.check.get f).getD []

/-- `take_changes`, diagnostics.rs:90-95. -/
def Collection.takeChanges (c : Collection) : Collection × Option (List Nat) :=
  if c.changes.isEmpty then (c, none) else ({ c with changes := [] }, some c.changes)

/-- One call of the API. -/
inductive Op where
  | clearCheck
  | addCheck (f : Nat) (d : Diagnostic) (fixes : List Nat)
  | setNative (f : Nat) (ds : List Diagnostic)
  | drain

/-- Effect of one call on the collection. -/
def Collection.step (c : Collection) : Op → Collection
  | .clearCheck => c.clearCheck
  | .addCheck f d fixes => c.addCheckDiagnostic f d fixes
  | .setNative f ds => c.setNativeDiagnostics f ds
  | .drain => c.takeChanges.1

end Verif.Diagnostics
