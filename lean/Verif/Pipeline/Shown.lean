import Verif.Pipeline.Props
import Verif.Parser.Fragment
import Verif.Parser.Samples
import Verif.Parser.ViableProps

set_option autoImplicit false

/-! C117: what the editor shows about a document is about the text of the document.  The models of the event
loop, of the documents, of the parser and of the positions are put together. -/

namespace Verif.Pipeline

open Verif.Edits (Position Range OffsetEncoding)
open Verif.Diagnostics (Diagnostic visible)
open Verif.LineEndings (CrlfToLf)
open Verif.Parser (BeginsFile Spaced fits nested)
open Verif.Language
open Verif.Lexer (Lexes significant)

/-! ## Specification -/

/-- A session after which nothing is left to do: the client kept to the protocol, results came in the order in
which they were asked for, all of them were received, and no open document makes the parser panic. -/
structure Settled (cfg : Server.SourceRootConfig) (dyn : Bool) (steps : List Server.Step) (c : Server.Spec.Client)
    (s : Server.State) : Prop where
  configured : Server.Configured cfg
  history : Server.Spec.History (Server.Spec.Client.init dyn) steps c
  few : Server.FewPaths steps
  inOrder : Server.Spec.InOrder steps
  runs : Server.run env cfg dyn steps = .running s
  jobs : s.jobs = []
  channel : s.channel = []
  parsed : ∀ p d u, c.docs p = some d → CrlfToLf d.text u → ∃ k tree errors, Parser.parse u = .ok k tree errors

/-- What the editor shows about a file: the diagnostics in the last notification about it. -/
def shown (s : Server.State) (p : FileSet.Bytes) : List Diagnostic :=
  (Server.Spec.lastPublished (.pathBuf p) s.out).getD []

/-- The text is a Move file of at most 999 tokens besides comments and white space. -/
def CorrectFile (u : Text) : Prop :=
  ∃ ts shapes, Lexes u ts ∧ Derives [.nt .file] (significant ts) shapes ∧ Spaced ts ∧ (significant ts).length ≤ 999

/-! ## Line ends -/

theorem lastLine_cons (c : Char) (t : Text) :
    lastLine (c :: t) = if c ≠ '\n' ∧ '\n' ∉ t then c :: t else lastLine t := by
  unfold lastLine
  rw [List.reverse_cons, List.takeWhile_append]
  by_cases h : '\n' ∈ t
  · have hlen : (t.reverse.takeWhile (· != '\n')).length ≠ t.reverse.length := by
      intro he
      have := (List.takeWhile_sublist (l := t.reverse) (· != '\n')).eq_of_length he
      have hm : '\n' ∈ t.reverse.takeWhile (· != '\n') := by rw [this]; simpa using h
      have := List.all_takeWhile (l := t.reverse) (p := (· != '\n'))
      rw [List.all_eq_true] at this
      simpa using this _ hm
    rw [if_neg hlen, if_neg (by simp [h])]
  · have hall : t.reverse.takeWhile (· != '\n') = t.reverse := by
      have h' : '\n' ∉ t.reverse := by simpa using h
      generalize t.reverse = l at h'
      induction l with
      | nil => rfl
      | cons x l ih =>
        simp only [List.mem_cons, not_or] at h'
        rw [List.takeWhile_cons, if_pos (by simpa using Ne.symm h'.1), ih h'.2]
    rw [hall, if_pos rfl]
    by_cases hc : c = '\n'
    · simp [hc]
    · simp [hc, h]

theorem crlf_newline {a b : Text} (h : CrlfToLf a b) : '\n' ∈ a ↔ '\n' ∈ b := by
  induction h with
  | nil => rfl
  | pair _ _ => simp
  | keep _ _ ih => simp [ih]

theorem crlf_no_newline {a b : Text} (h : CrlfToLf a b) (hn : '\n' ∉ a) : a = b := by
  induction h with
  | nil => rfl
  | pair _ _ => simp at hn
  | keep _ _ ih => rw [ih (fun h => hn (by simp [h]))]

theorem crlf_lastLine {a b : Text} (h : CrlfToLf a b) : lastLine a = lastLine b := by
  induction h with
  | nil => rfl
  | @pair t u h ih =>
    rw [lastLine_cons, lastLine_cons, lastLine_cons]
    simp [ih]
  | @keep c t u hc h ih =>
    rw [lastLine_cons, lastLine_cons, ih]
    by_cases hn : '\n' ∈ u
    · simp [hn, (crlf_newline h).2 hn]
    · rw [crlf_no_newline h (fun hx => hn ((crlf_newline h).1 hx))]

theorem crlf_count {a b : Text} (h : CrlfToLf a b) : newlineCount a = newlineCount b := by
  unfold newlineCount
  induction h with
  | nil => rfl
  | pair _ ih => simp [ih]
  | keep _ _ ih => rw [List.count_cons, List.count_cons, ih]

/-- Converting line ends moves no position. -/
theorem crlf_position {a b : Text} (h : CrlfToLf a b) (enc : OffsetEncoding) :
    clientPosition enc a = clientPosition enc b := by
  unfold clientPosition
  rw [crlf_count h, crlf_lastLine h]

/-- A place in the converted text is a place in the text. -/
theorem crlf_split {t : Text} (p q : Text) (h : CrlfToLf t (p ++ q)) :
    ∃ p' q', t = p' ++ q' ∧ CrlfToLf p' p ∧ CrlfToLf q' q := by
  induction p generalizing t with
  | nil => exact ⟨[], t, rfl, .nil, h⟩
  | cons c p ih =>
    rw [List.cons_append] at h
    generalize hx : c :: (p ++ q) = x at h
    cases h with
    | nil => cases hx
    | pair h =>
      obtain ⟨rfl, rfl⟩ := List.cons.inj hx
      obtain ⟨p', q', rfl, h1, h2⟩ := ih h
      exact ⟨_, q', rfl, .pair h1, h2⟩
    | @keep d t u hc h =>
      obtain ⟨rfl, rfl⟩ := List.cons.inj hx
      obtain ⟨p', q', rfl, h1, h2⟩ := ih h
      refine ⟨_, q', rfl, .keep (fun ⟨e1, e2⟩ => hc ⟨e1, ?_⟩) h1, h2⟩
      cases p' with
      | nil => cases e2
      | cons x p' => simpa using e2

/-! ## C117 -/

/-- What is shown, in terms of the parser. -/
theorem shown_is_parsed {cfg dyn steps c s} (h : Settled cfg dyn steps c s) (p : FileSet.Bytes) (d : Server.Spec.Doc)
    (hd : c.docs p = some d) (hl : Server.LocalPath cfg (.pathBuf p)) (u : Text) (hu : CrlfToLf d.text u) :
    ∃ ds, publishDiagnostics u = some ds ∧ (shown s p).map visible = ds.map visible := by
  obtain ⟨u', ds, h1, h2, h3⟩ := Server.local_errors_are_published_partial env cfg dyn h.configured steps c h.history h.few
    h.inOrder s h.runs h.jobs h.channel
    (fun p d u h1 h2 => Option.isSome_iff_exists.2 ((diagnostics_exist_iff u).2 (h.parsed p d u h1 h2))) p d hd hl
  rw [LineEndings.crlfToLf_functional hu h1]
  exact ⟨ds, h2, h3⟩

/-- **C117.**  What is shown about a document depends on its present text only: not on what was typed before, on
the other documents, on the schedule, on the configuration or on the line ends. -/
theorem same_text_shows_same_partial {cfg dyn steps c s} (h : Settled cfg dyn steps c s)
    {cfg' dyn' steps' c' s'} (h' : Settled cfg' dyn' steps' c' s') (p p' : FileSet.Bytes) (d d' : Server.Spec.Doc)
    (hd : c.docs p = some d) (hd' : c'.docs p' = some d') (hl : Server.LocalPath cfg (.pathBuf p))
    (hl' : Server.LocalPath cfg' (.pathBuf p')) (u : Text) (hu : CrlfToLf d.text u) (hu' : CrlfToLf d'.text u) :
    (shown s p).map visible = (shown s' p').map visible := by
  obtain ⟨ds, h1, h2⟩ := shown_is_parsed h p d hd hl u hu
  obtain ⟨ds', h1', h2'⟩ := shown_is_parsed h' p' d' hd' hl' u hu'
  rw [h1] at h1'
  cases h1'
  rw [h2, h2']

/-- **C117.**  Nothing is shown about a document that is a Move file. -/
theorem correct_file_shows_nothing_partial {cfg dyn steps c s} (h : Settled cfg dyn steps c s) (p : FileSet.Bytes)
    (d : Server.Spec.Doc) (hd : c.docs p = some d) (hl : Server.LocalPath cfg (.pathBuf p)) (u : Text)
    (hu : CrlfToLf d.text u) (hc : CorrectFile u) : shown s p = [] := by
  obtain ⟨ds, h1, h2⟩ := shown_is_parsed h p d hd hl u hu
  obtain ⟨ts, shapes, q1, q2, q3, q4⟩ := hc
  obtain ⟨tree, hp, _⟩ := Parser.parse_valid_partial q1 q2 q3 q4
  obtain ⟨k, tree', errors, hp', hlen, _⟩ := diagnostics_are_errors h1
  rw [hp] at hp'
  cases hp'
  have : ds = [] := List.length_eq_zero_iff.1 (by simpa using hlen)
  subst this
  simpa using h2

/-- **C117.**  Every mark stands at a place of the text the client has, whatever its line ends are. -/
theorem marks_stand_in_text_partial {cfg dyn steps c s} (h : Settled cfg dyn steps c s) (p : FileSet.Bytes)
    (d : Server.Spec.Doc) (hd : c.docs p = some d) (hl : Server.LocalPath cfg (.pathBuf p)) :
    (shown s p).length ≤ 128 ∧ ∀ m ∈ shown s p, ∃ a b, d.text = a ++ b ∧
      m.range = ⟨clientPosition .utf8 a, clientPosition .utf8 a⟩ ∧ m.severity = some 1 ∧
      m.source = some "move-language-server" := by
  have hu := LineEndings.crlfToLf_strip _ d.text (Nat.le_refl _)
  obtain ⟨ds, h1, h2⟩ := shown_is_parsed h p d hd hl _ hu
  have hlen := congrArg List.length h2
  simp only [List.length_map] at hlen
  refine ⟨hlen ▸ diagnostics_bounded h1, fun m hm => ?_⟩
  have hv : visible m ∈ ds.map visible := by rw [← h2]; exact List.mem_map_of_mem hm
  obtain ⟨x, hx, hxv⟩ := List.mem_map.1 hv
  obtain ⟨i, hi⟩ := List.getElem?_of_mem hx
  obtain ⟨_, _, _, _, _, hall⟩ := diagnostics_are_errors h1
  obtain ⟨e, a, b, _, hab, _, hr, hs, _, hsrc, _⟩ := hall i x hi
  rw [hab] at hu
  obtain ⟨a', b', ht, ha, _⟩ := crlf_split a b hu
  unfold visible at hxv
  simp only [Prod.mk.injEq] at hxv
  exact ⟨a', b', ht, by rw [← hxv.2.2.1, hr, crlf_position ha], by rw [← hxv.2.1, hs], by rw [← hxv.1, hsrc]⟩

/-- The first error of the parser is the first one shown. -/
theorem shown_first {cfg dyn steps c s} (h : Settled cfg dyn steps c s) (p : FileSet.Bytes)
    (d : Server.Spec.Doc) (hd : c.docs p = some d) (hl : Server.LocalPath cfg (.pathBuf p))
    (u v : Text) (hu : CrlfToLf d.text (u ++ v))
    (herr : ∀ kind tree errors, Parser.parse (u ++ v) = .ok kind tree errors →
      ∃ e es, errors = e :: es ∧ e.offset ≤ byteLen u) :
    ∃ a b, d.text = a ++ b ∧ CrlfToLf a u ∧ CrlfToLf b v ∧
      ∃ m ms, shown s p = m :: ms ∧ NotBehind m.range.start (clientPosition .utf8 a) := by
  obtain ⟨a, b, hab, ha, hb⟩ := crlf_split u v hu
  refine ⟨a, b, hab, ha, hb, ?_⟩
  obtain ⟨ds, h1, h2⟩ := shown_is_parsed h p d hd hl _ hu
  obtain ⟨k, tree, errors, hp, hlen, hall⟩ := diagnostics_are_errors h1
  obtain ⟨e, es, rfl, hle⟩ := herr k tree errors hp
  cases ds with
  | nil => simp at hlen; omega
  | cons x xs =>
    cases hs : shown s p with
    | nil => rw [hs] at h2; cases h2
    | cons m ms =>
      refine ⟨m, ms, rfl, ?_⟩
      obtain ⟨e', a', b', he, hab', hoff, hr, _⟩ := hall 0 x rfl
      cases he
      rw [hs] at h2
      simp only [List.map_cons, List.cons.injEq] at h2
      have hm : m.range = x.range := congrArg (fun v => v.2.2.1) h2.1
      rw [hm, hr, crlf_position ha]
      refine notBehind_of_offset (u ++ v) (a := byteLen a') (b := byteLen u) (by omega) ?_ (position_prefix _ _ _)
      rw [hab']
      exact position_prefix _ _ _

theorem texts_split {u : Text} {before after : List (Kind × Text)} (hlex : Lexes u (before ++ after)) :
    u = (before.map Prod.snd).flatten ++ (after.map Prod.snd).flatten := by
  have := hlex.text
  simpa using this

/-- **C117.**  If no file begins like the document does up to the token `x`, something is shown about it, and the
first mark stands at `x` or in front of it.  `a` is what the client has in front of `x`. -/
theorem first_mark_not_late_partial {cfg dyn steps c s} (h : Settled cfg dyn steps c s) (p : FileSet.Bytes)
    (d : Server.Spec.Doc) (hd : c.docs p = some d) (hl : Server.LocalPath cfg (.pathBuf p))
    (u : Text) (hu : CrlfToLf d.text u) (before after : List (Kind × Text)) (x : Kind × Text)
    (hlex : Lexes u (before ++ x :: after)) (hb : ¬ BeginsFile Lenient (before ++ [x])) :
    ∃ a b, d.text = a ++ b ∧ CrlfToLf a (before.map Prod.snd).flatten ∧ CrlfToLf b ((x :: after).map Prod.snd).flatten ∧
      ∃ m ms, shown s p = m :: ms ∧ NotBehind m.range.start (clientPosition .utf8 a) := by
  have ht := texts_split hlex
  rw [ht] at hu
  exact shown_first h p d hd hl _ _ hu fun _ _ _ hp => Parser.first_error_not_late_partial hlex hb (ht ▸ hp)

/-- **C117.**  A closing brace or parenthesis `x` that does not fit is marked, or something in front of it. -/
theorem wrong_bracket_is_marked_partial {cfg dyn steps c s} (h : Settled cfg dyn steps c s) (p : FileSet.Bytes)
    (d : Server.Spec.Doc) (hd : c.docs p = some d) (hl : Server.LocalPath cfg (.pathBuf p))
    (u : Text) (hu : CrlfToLf d.text u) (before after : List (Kind × Text)) (x : Kind × Text)
    (hlex : Lexes u (before ++ x :: after)) (hb : fits [] ((before ++ [x]).map Prod.fst) = false) :
    ∃ a b, d.text = a ++ b ∧ CrlfToLf a (before.map Prod.snd).flatten ∧ CrlfToLf b ((x :: after).map Prod.snd).flatten ∧
      ∃ m ms, shown s p = m :: ms ∧ NotBehind m.range.start (clientPosition .utf8 a) := by
  have ht := texts_split hlex
  rw [ht] at hu
  exact shown_first h p d hd hl _ _ hu fun _ _ _ hp => Parser.wrong_bracket_reported hlex hb (ht ▸ hp)

/-- **C117.**  A document with a brace or parenthesis that is not closed is not shown as correct. -/
theorem unclosed_bracket_is_marked_partial {cfg dyn steps c s} (h : Settled cfg dyn steps c s) (p : FileSet.Bytes)
    (d : Server.Spec.Doc) (hd : c.docs p = some d) (hl : Server.LocalPath cfg (.pathBuf p)) (u : Text)
    (hu : CrlfToLf d.text u) (ts : List (Kind × Text)) (hlex : Lexes u ts)
    (hb : nested [] (ts.map Prod.fst) = false) : shown s p ≠ [] := by
  intro he
  obtain ⟨ds, h1, h2⟩ := shown_is_parsed h p d hd hl _ hu
  obtain ⟨k, tree, errors, hp, hlen, _⟩ := diagnostics_are_errors h1
  rw [he] at h2
  have : ds = [] := by simpa using h2.symm
  subst this
  have : errors = [] := List.length_eq_zero_iff.1 (by simp at hlen; omega)
  subst this
  rw [Parser.accepted_is_nested hlex hp] at hb
  cases hb

/-! ## Witnesses -/

/-- A configuration with a local file set that contains every file. -/
def localCfg : Server.SourceRootConfig := ⟨⟨1, []⟩, [0]⟩

/-- Nothing is left to do, and so much is shown. -/
def settledWith (steps : List Server.Step) (marks : List (Nat × Nat)) : Bool :=
  match Server.run env localCfg false steps with
  | .running s => s.jobs.isEmpty && s.channel.isEmpty &&
      (shown s Server.pathA).map (fun m => (m.range.start.line, m.range.start.character)) == marks
  | _ => false

def parsable (u : Text) : Bool :=
  match Parser.parse u with
  | .ok _ _ _ => true
  | _ => false

theorem settled_of_check {steps : List Server.Step} {c : Server.Spec.Client} {t u : Text} {marks : List (Nat × Nat)}
    (hist : Server.Spec.History (Server.Spec.Client.init false) steps c) (hfew : Server.FewPaths steps)
    (hin : Server.Spec.InOrder steps) (hdocs : ∀ p d, c.docs p = some d → d.text = t) (hu : CrlfToLf t u)
    (hp : parsable u = true) (hc : settledWith steps marks = true) :
    ∃ s, Settled localCfg false steps c s ∧
      (shown s Server.pathA).map (fun m => (m.range.start.line, m.range.start.character)) = marks := by
  unfold settledWith at hc
  cases hr : Server.run env localCfg false steps with
  | exited s => rw [hr] at hc; cases hc
  | failed s => rw [hr] at hc; cases hc
  | panicked => rw [hr] at hc; cases hc
  | running s =>
    rw [hr] at hc
    simp only [Bool.and_eq_true, List.isEmpty_iff, beq_iff_eq] at hc
    refine ⟨s, ⟨Server.default_configured, hist, hfew, hin, hr, hc.1.1, hc.1.2, fun p d v h1 h2 => ?_⟩, hc.2⟩
    rw [hdocs p d h1] at h2
    rw [LineEndings.crlfToLf_functional h2 hu]
    unfold parsable at hp
    cases hq : Parser.parse u with
    | ok k tree errors => exact ⟨k, tree, errors, rfl⟩
    | panic w => rw [hq] at hp; cases hp
    | outOfFuel => rw [hq] at hp; cases hp

open Server Server.Spec in
/-- A document is opened. -/
def openSteps (t : Text) : List Step :=
  [.message (.didOpen (some pathA) 1 t) (fun _ => 0), .finish 0, .deliver 0, .tasks (fun _ => 0)]

open Server Server.Spec in
/-- It is opened without its last brace, and the brace is typed behind it. -/
def typedSteps (t : Text) : List Step :=
  let edit : Edits.Spec.Edit := .ranged (Edits.Spec.posOf t) (Edits.Spec.posOf t) ['}']
  openSteps t ++ [.message (.didChange (some pathA) 2 ([edit].map Edits.toChange)) (fun _ => 0), .finish 0, .deliver 0,
    .tasks (fun _ => 0)]

theorem correct_sample : CorrectFile "module M {\n}".toList := by
  refine ⟨[(.MODULE_KW, "module".toList), (.WHITESPACE, " ".toList), (.IDENT, "M".toList), (.WHITESPACE, " ".toList),
    (.L_BRACE, "{".toList), (.WHITESPACE, "\n".toList), (.R_BRACE, "}".toList)], _, Parser.lexes_of_check (by decide +kernel),
    .nt .file_module (.nt .module_plain (.tok (t := "module".toList) (Parser.Bin.derives_snoc (Parser.derives_name "M".toList)
      (.nt .item_body (.tok (t := "{".toList) (.nt .items_nil .nil (.tok (t := "}".toList) .nil))) .nil)))
      (.nt .file_nil .nil .nil)) .nil, Parser.spaced_of_check (by decide), by decide⟩

/-- The document in the end. -/
def typedClient (t : Text) : Server.Spec.Client :=
  ((Server.Spec.Client.init false).set Server.pathA (some ⟨1, t⟩)).set Server.pathA (some ⟨2, t ++ ['}']⟩)

theorem openSteps_history (t : Text) : Server.Spec.History (Server.Spec.Client.init false) (openSteps t)
    ((Server.Spec.Client.init false).set Server.pathA (some ⟨1, t⟩)) :=
  .message _ (.openFile ..) (.finish _ (.deliver _ (.tasks _ (.nil _))))

theorem typed_history (t : Text) : Server.Spec.History (Server.Spec.Client.init false) (typedSteps t) (typedClient t) := by
  refine .message _ (.openFile ..) (.finish _ (.deliver _ (.tasks _ (.message _ ?_ (.finish _ (.deliver _ (.tasks _ (.nil _))))))))
  refine .changeFile _ Server.pathA _ ⟨1, t⟩ _ _ (by simp [Server.Spec.Client.set]) (.cons ?_ (.nil _))
  simpa using Edits.Spec.EditsTo.ranged t [] [] ['}']

theorem docs_set {c : Server.Spec.Client} {d : Server.Spec.Doc} (h : ∀ p, p ≠ Server.pathA → c.docs p = none)
    (p : FileSet.Bytes) (d' : Server.Spec.Doc) (hd : (c.set Server.pathA (some d)).docs p = some d') : d'.text = d.text := by
  unfold Server.Spec.Client.set at hd
  simp only at hd
  by_cases hp : p = Server.pathA
  · rw [if_pos hp] at hd
    cases hd
    rfl
  · rw [if_neg hp, h p hp] at hd
    cases hd

/-- A session in which a brace is missing and then typed. -/
theorem typed_settled (t u : Text) (marks : List (Nat × Nat)) (hu : CrlfToLf (t ++ ['}']) u) (hp : parsable u = true)
    (hc : settledWith (typedSteps t) marks = true) :
    ∃ s, Settled localCfg false (typedSteps t) (typedClient t) s ∧
      (shown s Server.pathA).map (fun m => (m.range.start.line, m.range.start.character)) = marks := by
  refine settled_of_check (typed_history t) ⟨[Server.pathA], by decide, by simp [typedSteps, openSteps, Server.Spec.opened]⟩
    (by intro i hi; simpa [typedSteps, openSteps] using hi) ?_ hu hp hc
  intro p d hd
  refine docs_set (fun p hp => ?_) p d hd
  simp [Server.Spec.Client.set, hp, Server.Spec.Client.init]

/-- Sessions that open a document with a bracket that does not fit and with one that is not closed. -/
theorem open_settled (t u : Text) (marks : List (Nat × Nat)) (hu : CrlfToLf t u) (hp : parsable u = true)
    (hc : settledWith (openSteps t) marks = true) :
    ∃ s, Settled localCfg false (openSteps t) ((Server.Spec.Client.init false).set Server.pathA (some ⟨1, t⟩)) s ∧
      (shown s Server.pathA).map (fun m => (m.range.start.line, m.range.start.character)) = marks :=
  settled_of_check (openSteps_history t) ⟨[Server.pathA], by decide, by simp [openSteps, Server.Spec.opened]⟩
    (by intro i hi; simpa [openSteps] using hi) (docs_set (fun _ _ => rfl)) hu hp hc

def unclosed : Text := ['m', 'o', 'd', 'u', 'l', 'e', ' ', 'M', ' ', '{', '\r', '\n']

def closed : Text := ['m', 'o', 'd', 'u', 'l', 'e', ' ', 'M', ' ', '{', '\n', '}']

/-- The hypotheses of `correct_file_shows_nothing_partial` and `same_text_shows_same_partial` are met. -/
example : ∃ s, Settled localCfg false (typedSteps unclosed) (typedClient unclosed) s ∧
    Server.LocalPath localCfg (.pathBuf Server.pathA) ∧
    (typedClient unclosed).docs Server.pathA = some ⟨2, unclosed ++ ['}']⟩ ∧
    CrlfToLf (unclosed ++ ['}']) closed ∧ CorrectFile closed := by
  obtain ⟨s, h, _⟩ := typed_settled unclosed closed [] (LineEndings.crlfToLf_strip _ _ (Nat.le_refl _)) (by decide +kernel)
    (by decide +kernel)
  exact ⟨s, h, rfl, rfl, LineEndings.crlfToLf_strip _ _ (Nat.le_refl _), correct_sample⟩

/-- Before the brace is typed its absence is shown, and the hypotheses of `unclosed_bracket_is_marked_partial` are met. -/
example : ∃ s ts, Settled localCfg false (openSteps unclosed)
      ((Server.Spec.Client.init false).set Server.pathA (some ⟨1, unclosed⟩)) s ∧
    (shown s Server.pathA).map (fun m => (m.range.start.line, m.range.start.character)) = [(0, 10)] ∧
    Lexes closed.dropLast ts ∧ nested [] (ts.map Prod.fst) = false := by
  obtain ⟨s, h, hm⟩ := open_settled unclosed closed.dropLast [(0, 10)] (LineEndings.crlfToLf_strip _ _ (Nat.le_refl _))
    (by decide +kernel) (by decide +kernel)
  exact ⟨s, [(.MODULE_KW, "module".toList), (.WHITESPACE, " ".toList), (.IDENT, "M".toList), (.WHITESPACE, " ".toList),
    (.L_BRACE, "{".toList), (.WHITESPACE, "\n".toList)], h, hm, Parser.lexes_of_check (by decide +kernel), by decide⟩

def unfit : Text := "module M {\r\n fun f() { (1 } }".toList

def unfitLf : Text := "module M {\n fun f() { (1 } }".toList

/-- Those of `wrong_bracket_is_marked_partial` and `first_mark_not_late_partial`: a mark stands in front of the brace. -/
example : ∃ s before after, Settled localCfg false (openSteps unfit)
      ((Server.Spec.Client.init false).set Server.pathA (some ⟨1, unfit⟩)) s ∧
    (shown s Server.pathA).map (fun m => (m.range.start.line, m.range.start.character)) = [(1, 14), (1, 17), (1, 17), (1, 17)] ∧
    CrlfToLf unfit unfitLf ∧ Lexes unfitLf (before ++ (.R_BRACE, "}".toList) :: after) ∧
    fits [] ((before ++ [(.R_BRACE, "}".toList)]).map Prod.fst) = false := by
  obtain ⟨s, h, hm⟩ := open_settled unfit unfitLf [(1, 14), (1, 17), (1, 17), (1, 17)] (LineEndings.crlfToLf_strip _ _ (Nat.le_refl _))
    (by decide +kernel) (by decide +kernel)
  exact ⟨s, [(.MODULE_KW, "module".toList), (.WHITESPACE, " ".toList), (.IDENT, "M".toList), (.WHITESPACE, " ".toList),
    (.L_BRACE, "{".toList), (.WHITESPACE, "\n ".toList), (.FUN_KW, "fun".toList), (.WHITESPACE, " ".toList),
    (.IDENT, "f".toList), (.L_PAREN, "(".toList), (.R_PAREN, ")".toList), (.WHITESPACE, " ".toList), (.L_BRACE, "{".toList),
    (.WHITESPACE, " ".toList), (.L_PAREN, "(".toList), (.INTEGER_NUMBER, "1".toList), (.WHITESPACE, " ".toList)],
    [(.WHITESPACE, " ".toList), (.R_BRACE, "}".toList)], h, hm, LineEndings.crlfToLf_strip _ _ (Nat.le_refl _),
    Parser.lexes_of_check (by decide +kernel), by decide⟩

end Verif.Pipeline
