import Verif.Pipeline.Model
import Verif.LineIndex.Props
import Verif.Parser.Props
import Verif.Server.Converge

set_option autoImplicit false

/-! C23 (diagnostics), C59 (one document cannot hide another's diagnostics), C60 (encodings). -/

namespace Verif.Pipeline

open Verif.Edits (Position Range OffsetEncoding)
open Verif.Diagnostics (Diagnostic)
open Verif.LineIndex (PosLt)

/-! ## Specification -/

/-- The position behind the text `p` as a client counts it: line number, and length of the rest of
the line in bytes or in UTF-16 units. -/
def clientPosition (enc : OffsetEncoding) (p : Text) : Position :=
  ⟨newlineCount p, match enc with | .utf8 => byteLen (lastLine p) | .utf16 => utf16Len (lastLine p)⟩

/-- One position is not behind another. -/
def NotBehind (a b : Position) : Prop := a = b ∨ PosLt (a.line, a.character) (b.line, b.character)

/-! ## Positions -/

/-- Offsets become positions as the client counts them, in the chosen encoding. -/
theorem position_prefix (p q : Text) (enc : OffsetEncoding) :
    position (LineIndex.new (p ++ q)) enc (byteLen p) = some (clientPosition enc p) := by
  unfold position
  rw [LineIndex.lineCol_is_position]
  cases enc with
  | utf8 => rfl
  | utf16 => simp only [LineIndex.toUtf16_is_unit_count]; rfl

theorem position_total (text : Text) (off : Nat) :
    ∃ lc, (LineIndex.new text).lineCol off = some lc ∧
      position (LineIndex.new text) .utf8 off = some ⟨lc.line, lc.col⟩ := by
  obtain ⟨lc, h, _⟩ := LineIndex.offset_lineCol_roundtrip text off
  exact ⟨lc, h, by unfold position; rw [h]⟩

theorem toProto_total (text : Text) (d : IdeDiagnostic) : ∃ d', toProto (LineIndex.new text) d = some d' := by
  obtain ⟨_, _, h1⟩ := position_total text d.range.1
  obtain ⟨_, _, h2⟩ := position_total text d.range.2
  unfold toProto range snapshotEncoding
  rw [h1, h2]
  exact ⟨_, rfl⟩

theorem mapM_getElem {α β : Type} {f : α → Option β} {l : List α} {r : List β} (h : l.mapM f = some r) :
    r.length = l.length ∧ ∀ (i : Nat) b, r[i]? = some b → ∃ a, l[i]? = some a ∧ f a = some b := by
  induction l generalizing r with
  | nil => simp at h; subst h; simp
  | cons x xs ih =>
    rw [List.mapM_cons] at h
    cases hx : f x with
    | none => rw [hx] at h; simp at h
    | some y =>
      cases hxs : xs.mapM f with
      | none => rw [hx, hxs] at h; simp at h
      | some ys =>
        rw [hx, hxs] at h
        simp at h
        subst h
        obtain ⟨e1, e2⟩ := ih hxs
        refine ⟨by simp [e1], fun i b hb => ?_⟩
        cases i with
        | zero => simp at hb; exact ⟨x, by simp, by rw [hx, hb]⟩
        | succ i =>
          rw [List.getElem?_cons_succ] at hb ⊢
          exact e2 i b hb

theorem mapM_total {α β : Type} {f : α → Option β} (l : List α) (h : ∀ a, ∃ b, f a = some b) :
    ∃ r, l.mapM f = some r := by
  induction l with
  | nil => exact ⟨[], rfl⟩
  | cons x xs ih =>
    obtain ⟨y, hy⟩ := h x
    obtain ⟨ys, hys⟩ := ih
    exact ⟨y :: ys, by rw [List.mapM_cons, hy, hys]; rfl⟩

/-! ## C23 -/

/-- **C23.**  There are diagnostics for a text exactly when the parser returns a tree for it: nothing
else on the way can fail. -/
theorem diagnostics_exist_iff (text : Text) :
    (∃ ds, publishDiagnostics text = some ds) ↔ ∃ k tree errors, Parser.parse text = .ok k tree errors := by
  unfold publishDiagnostics diagnostics
  cases h : Parser.parse text with
  | ok k tree errors => simp only; exact ⟨fun _ => ⟨k, tree, errors, rfl⟩, fun _ => mapM_total _ (toProto_total text)⟩
  | panic w => simp
  | outOfFuel => simp

/-- **C23**, for any diagnostic the analysis may give, with a range that is not empty too: it is shown from the
position of its start to that of its end, errors as errors (1) and weak warnings as hints (4), with its message and
its code. -/
theorem converted (a b c : Text) (d : IdeDiagnostic) (hr : d.range = (byteLen a, byteLen (a ++ b))) :
    ∃ p, toProto (LineIndex.new (a ++ b ++ c)) d = some p ∧
      p.range = ⟨clientPosition .utf8 a, clientPosition .utf8 (a ++ b)⟩ ∧
      (p.severity = some 1 ↔ d.severity = .error) ∧ (p.severity = some 4 ↔ d.severity = .weakWarning) ∧
      p.message = d.message ∧ p.source = some "move-language-server" ∧
      p.rest = d.code ++ (if d.unused then "unnecessary".toList else []) := by
  have h1 := position_prefix a (b ++ c) snapshotEncoding
  have h2 := position_prefix (a ++ b) c snapshotEncoding
  rw [← List.append_assoc] at h1
  refine ⟨_, by simp only [toProto, range, hr, h1, h2]; rfl, rfl, ?_, ?_, rfl, rfl, rfl⟩ <;>
    cases d.severity <;> simp [diagnosticSeverity]

example : ∃ p, toProto (LineIndex.new "let x\n = yy;".toList) ⟨"unused".toList, "m".toList, (9, 11), .weakWarning, true, false⟩ =
    some p ∧ p.range = ⟨⟨1, 3⟩, ⟨1, 5⟩⟩ :=
  ⟨_, rfl, by decide +kernel⟩

/-- **C23.**  The diagnostics of a text are its first 128 syntax errors, in order.  Each is an error
with the message of the syntax error and an empty range, and the range lies inside the text: it is
the position behind a prefix of the text. -/
theorem diagnostics_are_errors {text : Text} {ds : List Diagnostic} (h : publishDiagnostics text = some ds) :
    ∃ k tree errors, Parser.parse text = .ok k tree errors ∧ ds.length = min 128 errors.length ∧
      ∀ (i : Nat) d, ds[i]? = some d → ∃ e p q, errors[i]? = some e ∧ text = p ++ q ∧ byteLen p = e.offset ∧
        d.range = ⟨clientPosition .utf8 p, clientPosition .utf8 p⟩ ∧ d.severity = some 1 ∧
        d.message = "Syntax Error: ".toList ++ e.msg.toList ∧
        d.source = some "move-language-server" ∧ d.rest = "syntax-error".toList := by
  unfold publishDiagnostics diagnostics at h
  cases hp : Parser.parse text with
  | panic w => rw [hp] at h; cases h
  | outOfFuel => rw [hp] at h; cases h
  | ok k tree errors =>
    rw [hp] at h
    obtain ⟨e1, e2⟩ := mapM_getElem h
    refine ⟨k, tree, errors, rfl, by simp [e1], fun i d hd => ?_⟩
    obtain ⟨a, ha, hf⟩ := e2 i d hd
    rw [List.getElem?_map, Option.map_eq_some_iff] at ha
    obtain ⟨e, he, rfl⟩ := ha
    have he' : errors[i]? = some e := by
      rw [List.getElem?_take] at he
      split at he
      · exact he
      · cases he
    obtain ⟨_, ts, hl, hb⟩ := Parser.parse_errors hp
    obtain ⟨⟨before, after, rfl, hoff⟩, _⟩ := hb e (List.mem_of_getElem? he')
    have htext : text = (before.map Prod.snd).flatten ++ (after.map Prod.snd).flatten := by
      have := hl.text
      simpa using this
    refine ⟨e, _, _, he', htext, hoff.symm, ?_⟩
    unfold toProto range snapshotEncoding IdeDiagnostic.new at hf
    have hpos : position (LineIndex.new text) .utf8 e.offset =
        some (clientPosition .utf8 (List.map Prod.snd before).flatten) := by
      rw [hoff, htext]; exact position_prefix _ _ _
    simp only [hpos, Option.some.injEq] at hf
    subst hf
    exact ⟨rfl, rfl, rfl, rfl, rfl⟩

/-- **C23.**  At most 128 diagnostics. -/
theorem diagnostics_bounded {text : Text} {ds : List Diagnostic} (h : publishDiagnostics text = some ds) :
    ds.length ≤ 128 := by
  obtain ⟨_, _, errors, _, hl, _⟩ := diagnostics_are_errors h
  omega

theorem notBehind_of_offset (text : Text) {a b : Nat} (h : a ≤ b) {x y : Position}
    (hx : position (LineIndex.new text) .utf8 a = some x) (hy : position (LineIndex.new text) .utf8 b = some y) :
    NotBehind x y := by
  obtain ⟨la, lb, h1, h2, h3⟩ := LineIndex.position_order_iff text a b
  unfold position at hx hy
  rw [h1] at hx; rw [h2] at hy
  simp only [Option.some.injEq] at hx hy
  subst hx hy
  by_cases hab : a < b
  · exact .inr (h3.1 hab)
  · have : a = b := by omega
    subst this
    rw [h1] at h2; cases h2
    exact .inl rfl

/-- **C23.**  Diagnostics come in the order of their positions. -/
theorem diagnostics_in_order {text : Text} {ds : List Diagnostic} (h : publishDiagnostics text = some ds) :
    ds.Pairwise (fun a b => NotBehind a.range.start b.range.start) := by
  obtain ⟨k, tree, errors, hp, _, hd⟩ := diagnostics_are_errors h
  obtain ⟨hord, _⟩ := Parser.parse_errors hp
  rw [List.pairwise_iff_getElem] at hord ⊢
  intro i j hi hj hij
  obtain ⟨e, p, q, h1, h2, h3, h4, _⟩ := hd i _ (List.getElem?_eq_getElem hi)
  obtain ⟨e', p', q', h1', h2', h3', h4', _⟩ := hd j _ (List.getElem?_eq_getElem hj)
  obtain ⟨hi', rfl⟩ := List.getElem?_eq_some_iff.1 h1
  obtain ⟨hj', rfl⟩ := List.getElem?_eq_some_iff.1 h1'
  rw [h4, h4']
  apply notBehind_of_offset text (hord i j hi' hj' hij)
  · rw [← h3, h2]; exact position_prefix _ _ _
  · rw [← h3', h2']; exact position_prefix _ _ _

/-- Witness: two errors on the second line. -/
def brokenSample : Text := "script {\n fun f() { let ; let ; } }".toList

example : (publishDiagnostics brokenSample).map (·.map (fun d => (d.range.start.line, d.range.start.character))) =
    some [(1, 15), (1, 21)] := by
  decide +kernel

/-! ## C59 -/

open Server in
/-- Two documents are opened one after the other. -/
def openBoth (textA textB : Text) : List Step :=
  [.message (.didOpen (some pathA) 1 textA) (fun _ => 0), .message (.didOpen (some pathB) 1 textB) (fun _ => 0)]

open Server in
/-- Then all computations run to their end and their results are received. -/
def twoDocuments (textA textB : Text) : List Step :=
  openBoth textA textB ++ [.finish 1, .deliver 0, .tasks (fun _ => 0)]

open Server in
theorem run_openBoth (env : Env) (textA textB : Text) :
    ∃ s, runFrom env (State.init SourceRootConfig.default false) (openBoth textA textB) = .running s ∧
      s.jobs = [.finished (.diagnostics []), .running [0, 1] s.db] ∧ s.channel = [] ∧
      s.diagnostics = Diagnostics.Collection.empty ∧ s.vfs.changes = [] ∧ s.memDocs.addedOrRemoved = false ∧
      (s.lineEndings.get 0).isSome ∧ s.db.fileText.get 0 = some (LineEndings.normalize textA).1 :=
  ⟨_, rfl, rfl, rfl, rfl, rfl, rfl, rfl, rfl⟩

open Server in
/-- A worker that panics on one file sends nothing, whatever the other files are. -/
theorem compute_panics {env : Env} {s : State} {text : Text} {rest : List Nat} (hl : (s.lineEndings.get 0).isSome)
    (ht : s.db.fileText.get 0 = some text) (h : env.diagnostics text = none) :
    compute env s.lineEndings s.db (0 :: rest) = none := by
  obtain ⟨e, he⟩ := Option.isSome_iff_exists.1 hl
  have hp : Server.publishDiagnostics env s.lineEndings s.db 0 = none := by
    unfold Server.publishDiagnostics
    simp only [he, ht, h]
  unfold compute
  rw [List.mapM_cons, hp]
  rfl

open Server in
/-- **C59 does not hold**: while a document is open that makes the parser panic, nothing is stored for
the other document, although all work is done and received. -/
theorem panicking_document_hides_others (textA textB u : Text) (hu : LineEndings.CrlfToLf textA u)
    (h : ∀ k tree errors, Parser.parse u ≠ .ok k tree errors) :
    ∃ s, run env SourceRootConfig.default false (twoDocuments textA textB) = .running s ∧
      s.jobs = [] ∧ s.channel = [] ∧ ∀ f, s.diagnostics.diagnosticsFor f = [] := by
  have hn : env.diagnostics (LineEndings.normalize textA).1 = none := by
    have : (LineEndings.normalize textA).1 = u :=
      LineEndings.crlfToLf_functional (LineEndings.crlfToLf_strip _ textA (Nat.le_refl _)) hu
    rw [this]
    cases hd : env.diagnostics u with
    | none => rfl
    | some ds =>
      obtain ⟨k, tree, errors, he⟩ := (diagnostics_exist_iff _).1 ⟨ds, hd⟩
      exact absurd he (h k tree errors)
  obtain ⟨s, hr, hj, hc, hd, hv, hm, hl, ht⟩ := run_openBoth env textA textB
  unfold run twoDocuments
  rw [runFrom_append, hr]
  have hf : s.finishJob env 1 = { s with jobs := [.finished (.diagnostics [])] } := by
    unfold State.finishJob
    rw [hj]
    simp [compute_panics hl ht hn]
  have hdel : State.deliverJob { s with jobs := [.finished (.diagnostics [])] } 0 =
      { s with jobs := [], channel := [.diagnostics []] } := by
    unfold State.deliverJob
    simp [hc]
  have htask : State.onTasks { s with jobs := [], channel := [.diagnostics []] } =
      { s with jobs := [], channel := [] } := rfl
  have hafter : State.afterEvent env (fun _ => 0) { s with jobs := [], channel := [] } =
      some { s with jobs := [], channel := [] } := by
    have e1 : ({ s.vfs with changes := [] } : Vfs.Vfs FileSet.VfsPath Text) = s.vfs := by rw [← hv]
    have e2 : ({ s.memDocs with addedOrRemoved := false } : MemDocs) = s.memDocs := by rw [← hm]
    unfold State.afterEvent State.processChanges Vfs.Vfs.takeChanges
    simp only [hv, List.isEmpty_nil, if_true, hm, Bool.or_self, Bool.false_eq_true, if_false, State.publishAll, hd]
    simp [Diagnostics.Collection.takeChanges, Diagnostics.Collection.empty, ← hd, e1, e2]
  refine ⟨{ s with jobs := [], channel := [] }, ?_, rfl, rfl, fun f => by rw [hd]; rfl⟩
  simp [runFrom, step, hf, hdel, htask, hafter]

/-- Witness: a stray brace hides the two errors of the other document. -/
example : LineEndings.CrlfToLf "}".toList "}".toList ∧ Parser.parse "}".toList = .panic .stuck ∧
    (publishDiagnostics brokenSample).map List.length = some 2 :=
  ⟨.keep (by simp) .nil,
    Parser.parse_stray_token (ts := [(.R_BRACE, "}".toList)]) (k := .R_BRACE) (u := "}".toList)
      (.cons (u := "}".toList) (r := []) (by decide) (by rfl) (.nil _)) rfl (by decide),
    by decide +kernel⟩

/-- **C59, partial.**  When no open document makes the parser panic, the diagnostics stored for every
open document are those of its own text, once all work is finished and results came in order. -/
theorem documents_are_independent_partial (cfg : Server.SourceRootConfig) (dyn : Bool) (hcfg : Server.Configured cfg)
    (steps : List Server.Step) (c : Server.Spec.Client) (hist : Server.Spec.History (Server.Spec.Client.init dyn) steps c)
    (hfew : Server.FewPaths steps) (horder : Server.Spec.InOrder steps) (s : Server.State)
    (hrun : Server.run env cfg dyn steps = .running s) (hjobs : s.jobs = []) (hchan : s.channel = [])
    (hok : ∀ p d u, c.docs p = some d → LineEndings.CrlfToLf d.text u → ∃ k tree errors, Parser.parse u = .ok k tree errors)
    (p : FileSet.Bytes) (d : Server.Spec.Doc) (hd : c.docs p = some d) :
    ∃ f u ds, s.vfs.fileId (.pathBuf p) = some (some f) ∧ LineEndings.CrlfToLf d.text u ∧
      publishDiagnostics u = some ds ∧
      (s.diagnostics.diagnosticsFor f).map Diagnostics.visible = ds.map Diagnostics.visible :=
  Server.stored_diagnostics_converge_partial env cfg dyn hcfg steps c hist hfew horder s hrun hjobs hchan
    (fun p d u h1 h2 => Option.isSome_iff_exists.2 ((diagnostics_exist_iff u).2 (hok p d u h1 h2))) p d hd

/-! ## C60 -/

theorem unit16_ascii {c : Char} (h : c.val.toNat < 128) : unit16 c = 1 := by
  unfold unit16; rw [if_neg (by omega)]

theorem byteLen_eq_utf16Len (l : Text) : byteLen l = utf16Len l ↔ ∀ c ∈ l, c.val.toNat < 128 := by
  induction l with
  | nil => simp [byteLen, utf16Len]
  | cons c cs ih =>
    have h1 := unit16_le_utf8Size c
    have h2 := LineIndex.utf16Len_le_byteLen cs
    have h3 := utf8Size_eq_one_iff c
    have h4 := utf8Size_pos c
    have h5 := utf8Size_eq_four_iff c
    simp only [byteLen, utf16Len, List.forall_mem_cons, ← ih, ← h3]
    have h6 : unit16 c = 1 ∨ unit16 c = 2 := by unfold unit16; split <;> simp
    constructor
    · intro h; omega
    · intro h; omega

/-- **C60**, exactly when it holds for diagnostics: the client offers UTF-8, or all characters
before the position on its line are ASCII. -/
theorem diagnostic_position_agrees_iff (clientOffersUtf8 : Bool) (p q : Text) :
    position (LineIndex.new (p ++ q)) snapshotEncoding (byteLen p) =
        some (clientPosition (announcedEncoding clientOffersUtf8) p) ↔
      clientOffersUtf8 = true ∨ ∀ c ∈ lastLine p, c.val.toNat < 128 := by
  unfold snapshotEncoding
  rw [position_prefix]
  cases clientOffersUtf8 with
  | true => simp [announcedEncoding]
  | false => simp [announcedEncoding, clientPosition, byteLen_eq_utf16Len]

/-- **C60 does not hold** for diagnostics: behind a comment with an accented letter the client, which
was told UTF-16, is sent column 30 instead of 29. -/
theorem diagnostic_position_disagrees :
    let text := "module M { fun f() { a + // é".toList
    (publishDiagnostics text).map (·.map (fun d => d.range.start)) =
        some [⟨0, 30⟩, ⟨0, 30⟩, ⟨0, 30⟩] ∧
      clientPosition (announcedEncoding false) text = ⟨0, 29⟩ := by
  constructor <;> decide +kernel

/-- **C60 does not hold** for document changes: a client that was told UTF-8 inserts `!` behind `é`, and
the server inserts it behind `x`. -/
theorem change_position_disagrees :
    clientPosition (announcedEncoding true) "é".toList = ⟨0, 2⟩ ∧
      Edits.applyDocumentChanges "éxy".toList [⟨some ⟨⟨0, 2⟩, ⟨0, 2⟩⟩, ['!']⟩] = some "éx!y".toList := by
  constructor <;> decide +kernel

/-- **C60, partial**: in ASCII texts positions are the same in both encodings, for diagnostics and for
changes alike. -/
theorem positions_agree_partial (clientOffersUtf8 : Bool) (p q : Text) (h : ∀ c ∈ lastLine p, c.val.toNat < 128) :
    position (LineIndex.new (p ++ q)) snapshotEncoding (byteLen p) =
        some (clientPosition (announcedEncoding clientOffersUtf8) p) ∧
      Edits.offset (LineIndex.new (p ++ q)) changeEncoding (clientPosition (announcedEncoding clientOffersUtf8) p) =
        some (byteLen p) := by
  refine ⟨(diagnostic_position_agrees_iff _ p q).2 (.inr h), ?_⟩
  have : clientPosition (announcedEncoding clientOffersUtf8) p = clientPosition .utf16 p := by
    cases clientOffersUtf8 with
    | false => rfl
    | true => simp [announcedEncoding, clientPosition, (byteLen_eq_utf16Len _).2 h]
  rw [this]
  show (LineIndex.new (p ++ q)).offset ((LineIndex.new (p ++ q)).toUtf8 ⟨newlineCount p, utf16Len (lastLine p)⟩) = _
  obtain ⟨_, _, _, _, rfl, h4⟩ := LineIndex.utf16_roundtrip p q
  exact h4

example : ∀ c ∈ lastLine "module\n fun".toList, c.val.toNat < 128 := by decide

end Verif.Pipeline
