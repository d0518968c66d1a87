import Verif.Parser.Sink
import Verif.Server.Model

set_option autoImplicit false

/-!
From a file text to the diagnostics sent to the client: `crates/ide_diagnostics/src/lib.rs`,
`crates/move_language_server/src/handlers.rs` and `to_proto.rs`.  `none` is a panic.
-/

namespace Verif.Pipeline

open Verif.Edits (Position Range OffsetEncoding)
open Verif.LineIndex (LineIndex)
open Verif.Diagnostics (Diagnostic)

/-- `to_proto::position`, to_proto.rs:19-28. -/
def position (li : LineIndex) (enc : OffsetEncoding) (offset : Nat) : Option Position :=
  match li.lineCol offset with
  | none => none
  | some lc =>
    match enc with
    | .utf8 => some ⟨lc.line, lc.col⟩
    | .utf16 =>
      match li.toUtf16 lc with
      | none => none
      | some lc => some ⟨lc.line, lc.col⟩

/-- `to_proto::range`, to_proto.rs:30-34. -/
def range (li : LineIndex) (enc : OffsetEncoding) (r : Nat × Nat) : Option Range :=
  match position li enc r.1, position li enc r.2 with
  | some start, some stop => some ⟨start, stop⟩
  | _, _ => none

/-- `Severity`, ide_diagnostics/src/lib.rs:81-87. -/
inductive Severity where
  | error
  | weakWarning
deriving DecidableEq, Repr

/-- `to_proto::diagnostic_severity`, to_proto.rs:36-41, with the numbers of the protocol. -/
def diagnosticSeverity : Severity → Nat
  | .error => 1
  | .weakWarning => 4

/-- `ide_diagnostics::Diagnostic`, ide_diagnostics/src/lib.rs:42-50. -/
structure IdeDiagnostic where
  code : List Char
  message : List Char
  range : Nat × Nat
  severity : Severity
  unused : Bool
  experimental : Bool

/-- `Diagnostic::new`, ide_diagnostics/src/lib.rs:53-63. -/
def IdeDiagnostic.new (code message : List Char) (range : Nat × Nat) : IdeDiagnostic :=
  ⟨code, message, range, .error, false, false⟩

/-- `ide_diagnostics::diagnostics`, ide_diagnostics/src/lib.rs:89-101.  Errors have the empty range
at their offset (`SyntaxError::new_at_offset`, syntax_error.rs:27-29).  Running out of depth does
not happen (`parse_terminates`). -/
def diagnostics (text : Text) : Option (List IdeDiagnostic) :=
  match Parser.parse text with
  | .ok _ _ errors =>
    some ((errors.take 128).map fun e =>
      .new "syntax-error".toList ("Syntax Error: ".toList ++ e.msg.toList) (e.offset, e.offset))
  | _ => none

/-- The encoding of the line index a snapshot makes, global_state.rs:222-227. -/
def snapshotEncoding : OffsetEncoding := .utf8

/-- The closure of `handlers::publish_diagnostics`, handlers.rs:17-33.  Code, code description and
tags are in `rest`; the URL in the code description always parses. -/
def toProto (li : LineIndex) (d : IdeDiagnostic) : Option Diagnostic :=
  match range li snapshotEncoding d.range with
  | none => none
  | some r =>
    some ⟨r, some (diagnosticSeverity d.severity), some "move-language-server", d.message,
      d.code ++ (if d.unused then "unnecessary".toList else [])⟩

/-- `handlers::publish_diagnostics`, handlers.rs:7-36, on the text of a file. -/
def publishDiagnostics (text : Text) : Option (List Diagnostic) :=
  match diagnostics text with
  | none => none
  | some ds => ds.mapM (toProto (LineIndex.new text))

/-- The event loop with the modelled analysis. -/
def env : Server.Env := ⟨publishDiagnostics⟩

/-- The encoding the server tells the client to use, bin/move_language_server.rs:86: UTF-8 when the
client offers it (`supports_utf8`, lsp_ext.rs:455-457), otherwise none is named and the protocol says
UTF-16. -/
def announcedEncoding (clientOffersUtf8 : Bool) : OffsetEncoding := if clientOffersUtf8 then .utf8 else .utf16

/-- The encoding in which the server reads positions in document changes (`editStep`),
lsp_utils.rs:65. -/
def changeEncoding : OffsetEncoding := .utf16

end Verif.Pipeline
