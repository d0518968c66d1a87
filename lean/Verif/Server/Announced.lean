import Verif.Server.Crash

/-!
Clients that synchronise documents as the server announces it (C101).
-/

set_option autoImplicit false

namespace Verif.Server

open Verif.FileSet Verif.Vfs Verif.Db Verif.Diagnostics Verif.LineEndings Verif.Server.Spec

/-- `lsp_types::TextDocumentSyncKind`. -/
inductive SyncKind where
  | none
  | full
  | incremental
deriving DecidableEq, Repr

/-- `lsp_types::TextDocumentSyncOptions`, the fields that are set. -/
structure SyncOptions where
  openClose : Option Bool
  change : Option SyncKind
deriving DecidableEq, Repr

/-- `server_capabilities`, `/repo/crates/move_language_server/src/caps.rs:5-14`, sent in the answer to `initialize`
(`/repo/crates/move_language_server/src/bin/move_language_server.rs:78-89`). -/
def serverCapabilities : SyncOptions := ⟨some true, some .full⟩

namespace Spec

/-- The messages about documents that a client may send to a server with these capabilities: openings and
closings, if the server asks for them; changes with ranges only if it asks for incremental changes; no changes if
it asks for none. -/
def KeepsTo (o : SyncOptions) : Msg → Prop
  | .didOpen _ _ _ => o.openClose = some true
  | .didClose _ => o.openClose = some true
  | .didChange _ _ changes =>
    match o.change with
    | some .incremental => True
    | some .full => ∀ c, c ∈ changes → c.range = none
    | _ => False
  | _ => True

/-- Messages that can be read, of a session that goes on. -/
def Readable : Step → Prop
  | .message .malformed _ => False
  | .message .exit _ => False
  | .disconnect => False
  | _ => True

/-- The requests of the server that are answered in a history. -/
def answers : List Step → List Nat
  | [] => []
  | .message (.response id) _ :: steps => id :: answers steps
  | _ :: steps => answers steps

/-- What the client sent last about the document `p`: the version and the text, `none` if it is not open. -/
def sent (p : Bytes) : Option Doc → List Step → Option Doc
  | d, [] => d
  | d, .message (.didOpen (some q) v t) _ :: steps => sent p (if q = p then some ⟨v, t⟩ else d) steps
  | d, .message (.didClose (some q)) _ :: steps => sent p (if q = p then none else d) steps
  | d, .message (.didChange (some q) v changes) _ :: steps =>
    sent p (if q = p then d.map (fun d => ⟨v, match changes.getLast? with | some c => c.text | none => d.text⟩) else d) steps
  | d, _ :: steps => sent p d steps

end Spec

/-- Changes without ranges leave the text of the last one. -/
theorem whole_texts (t : Text) (changes : List Edits.Change) (h : ∀ c, c ∈ changes → c.range = none) :
    ∃ es : List Edits.Spec.Edit, es.map Edits.toChange = changes ∧
      Edits.Spec.EditsSeq t es (match changes.getLast? with | some c => c.text | none => t) := by
  induction changes generalizing t with
  | nil => exact ⟨[], rfl, .nil t⟩
  | cons c cs ih =>
    obtain ⟨es, h1, h2⟩ := ih c.text (fun d hd => h d (by simp [hd]))
    refine ⟨.full c.text :: es, ?_, .cons (.full t c.text) ?_⟩
    · have hc := h c (by simp)
      rw [List.map_cons, h1]
      cases c
      simp only at hc
      subst hc
      rfl
    · cases cs with
      | nil => simpa using h2
      | cons d ds => rw [List.getLast?_cons_cons]; exact h2

/-- A client that keeps to the announcement sends a conforming history. -/
theorem announced_history (c : Client) (steps : List Step)
    (hk : ∀ m cuts, Step.message m cuts ∈ steps → KeepsTo serverCapabilities m)
    (hr : ∀ st, st ∈ steps → Readable st) (ha : ∀ id, id ∈ answers steps → id ∈ c.unanswered)
    (hn : (answers steps).Nodup) :
    ∃ c', History c steps c' ∧ ∀ p, c'.docs p = sent p (c.docs p) steps := by
  induction steps generalizing c with
  | nil => exact ⟨c, .nil c, fun _ => rfl⟩
  | cons st steps ih =>
    have hk' : ∀ m cuts, Step.message m cuts ∈ steps → KeepsTo serverCapabilities m :=
      fun m cuts h => hk m cuts (List.mem_cons_of_mem _ h)
    have hr' : ∀ st, st ∈ steps → Readable st := fun s h => hr s (List.mem_cons_of_mem _ h)
    have hst := hr st (by simp)
    -- a step that does not change the client
    have same : ∀ (_ : answers (st :: steps) = answers steps) (_ : ∀ p d, sent p d (st :: steps) = sent p d steps)
        (_ : ∀ c', History c steps c' → History c (st :: steps) c'),
        ∃ c', History c (st :: steps) c' ∧ ∀ p, c'.docs p = sent p (c.docs p) (st :: steps) := by
      intro e1 e2 e3
      obtain ⟨c', h1, h2⟩ := ih c hk' hr' (by rw [← e1]; exact ha) (by rw [← e1]; exact hn)
      exact ⟨c', e3 c' h1, fun p => by rw [e2, h2]⟩
    cases st with
    | disconnect => exact hst.elim
    | tasks cuts => exact same rfl (fun _ _ => rfl) fun c' h => .tasks cuts h
    | finish i => exact same rfl (fun _ _ => rfl) fun c' h => .finish i h
    | deliver i => exact same rfl (fun _ _ => rfl) fun c' h => .deliver i h
    | message m cuts =>
      have hm := hk m cuts (by simp)
      cases m with
      | shutdown id b => exact same rfl (fun _ _ => rfl) fun c' h => .message cuts (.shutdown c id b) h
      | otherRequest id => exact same rfl (fun _ _ => rfl) fun c' h => .message cuts (.otherRequest c id) h
      | cancel id => exact same rfl (fun _ _ => rfl) fun c' h => .message cuts (.cancel c id) h
      | workDoneProgressCancel => exact same rfl (fun _ _ => rfl) fun c' h => .message cuts (.workDoneProgressCancel c) h
      | otherNotification => exact same rfl (fun _ _ => rfl) fun c' h => .message cuts (.otherNotification c) h
      | exit => exact hst.elim
      | malformed => exact hst.elim
      | response id =>
        have e : answers (.message (.response id) cuts :: steps) = id :: answers steps := rfl
        rw [e] at ha hn
        have hn' := List.nodup_cons.1 hn
        obtain ⟨c', h1, h2⟩ := ih { c with unanswered := c.unanswered.filter (· ≠ id) } hk' hr' (by
          intro j hj
          rw [List.mem_filter]
          refine ⟨ha j (by simp [hj]), ?_⟩
          have : j ≠ id := fun he => hn'.1 (he ▸ hj)
          simpa using this) hn'.2
        exact ⟨c', .message cuts (.response c id (ha id (by simp))) h1, h2⟩
      | didOpen uri v t =>
        cases uri with
        | none => exact same rfl (fun _ _ => rfl) fun c' h => .message cuts (.openOther c v t) h
        | some q =>
          obtain ⟨c', h1, h2⟩ := ih (c.set q (some ⟨v, t⟩)) hk' hr' ha hn
          refine ⟨c', .message cuts (.openFile c q v t) h1, fun p => ?_⟩
          rw [h2, sent, Client.set]
          simp only [eq_comm]
      | didClose uri =>
        cases uri with
        | none => exact same rfl (fun _ _ => rfl) fun c' h => .message cuts (.closeOther c) h
        | some q =>
          obtain ⟨c', h1, h2⟩ := ih (c.set q none) hk' hr' ha hn
          refine ⟨c', .message cuts (.closeFile c q) h1, fun p => ?_⟩
          rw [h2, sent, Client.set]
          simp only [eq_comm]
      | didChange uri v changes =>
        cases uri with
        | none => exact same rfl (fun _ _ => rfl) fun c' h => .message cuts (.changeOther c v changes) h
        | some q =>
          have hfull : ∀ d, d ∈ changes → d.range = none := hm
          cases hd : c.docs q with
          | none =>
            obtain ⟨c', h1, h2⟩ := ih c hk' hr' ha hn
            refine ⟨c', .message cuts (.changeUnopened c q v changes hd) h1, fun p => ?_⟩
            rw [h2, sent]
            by_cases hp : q = p
            · subst hp; rw [if_pos rfl, hd]; rfl
            · rw [if_neg hp]
          | some d =>
            obtain ⟨es, he, hs⟩ := whole_texts d.text changes hfull
            have hsay := Says.changeFile c q v d es _ hd hs
            rw [he] at hsay
            obtain ⟨c', h1, h2⟩ := ih (c.set q (some ⟨v, match changes.getLast? with | some c => c.text | none => d.text⟩))
              hk' hr' ha hn
            refine ⟨c', .message cuts hsay h1, fun p => ?_⟩
            rw [h2, sent, Client.set]
            by_cases hp : q = p
            · subst hp
              rw [if_pos rfl, hd]
              simp
            · rw [if_neg hp]
              simp [Ne.symm hp]

/-- **C101.**  A client that synchronises documents as the server announced it, and whose messages can be read,
never ends the server; for every document it has open the analysis has the text it sent last, with CRLF turned
into LF, and the version it sent last.  Nothing else is asked of the client: it may change documents that are not
open, open documents twice, and send several texts in one notification. -/
theorem announced_synchronisation (env : Env) (cfg : SourceRootConfig) (dyn : Bool) (hcfg : Configured cfg)
    (steps : List Step) (hk : ∀ m cuts, Step.message m cuts ∈ steps → KeepsTo serverCapabilities m)
    (hr : ∀ st, st ∈ steps → Readable st)
    (ha : ∀ id, id ∈ answers steps → dyn = true ∧ id = 0) (hn : (answers steps).Nodup) (hfew : FewPaths steps) :
    ∃ s, run env cfg dyn steps = .running s ∧
      (∀ p, s.memDocs.docs.get (.pathBuf p) = (sent p none steps).map Doc.version) ∧
      ∀ p d, sent p none steps = some d →
        ∃ f u, s.vfs.fileId (.pathBuf p) = some (some f) ∧ CrlfToLf d.text u ∧ s.db.fileText.get f = some u := by
  obtain ⟨c, hist, hdocs⟩ := announced_history (Client.init dyn) steps hk hr (by
    intro id hid
    obtain ⟨rfl, rfl⟩ := ha id hid
    simp [Client.init]) hn
  obtain ⟨s, hs⟩ := conforming_traffic_does_not_crash env cfg dyn hcfg steps c hist hfew
  refine ⟨s, hs, fun p => ?_, fun p d hd => ?_⟩
  · rw [(versions_are_current env cfg dyn hcfg steps c hist hfew s hs).1 p, hdocs]; rfl
  · exact analysis_text_is_client_text env cfg dyn hcfg steps c hist hfew s hs p d (by rw [hdocs]; exact hd)

/-- **C101**: the announcement lets a client report every opening, every closing and every change of a whole text, and no
change of a range. -/
theorem announced_messages (p : Option Bytes) (v : Int) (t : Text) (changes : List Edits.Change) :
    KeepsTo serverCapabilities (.didOpen p v t) ∧ KeepsTo serverCapabilities (.didClose p) ∧
    (KeepsTo serverCapabilities (.didChange p v changes) ↔ ∀ c, c ∈ changes → c.range = none) :=
  ⟨rfl, rfl, Iff.rfl⟩

/-- **C101**: had the server announced incremental changes, such a client could end it. -/
theorem incremental_clients_can_end_the_server (env : Env) :
    ∃ steps : List Step, (∀ m cuts, Step.message m cuts ∈ steps → KeepsTo ⟨some true, some .incremental⟩ m) ∧
      (∀ st, st ∈ steps → Readable st) ∧ run env .default false steps = .panicked := by
  refine ⟨[.message (.didOpen (some [47, 97]) 1 []) (fun _ => 0),
    .message (.didChange (some [47, 97]) 2 [Edits.toChange (.ranged (1, 0) (1, 0) [])]) (fun _ => 0)], ?_, ?_, ?_⟩
  · intro m cuts h
    rcases List.mem_cons.1 h with h | h
    · cases h; rfl
    · simp at h; rw [h.1]; trivial
  · intro st h
    rcases List.mem_cons.1 h with rfl | h
    · trivial
    · simp at h; subst h; trivial
  · have hh : History (Client.init false) [.message (.didOpen (some [47, 97]) 1 []) (fun _ => 0)]
        ((Client.init false).set [47, 97] (some ⟨1, []⟩)) := .message _ (.openFile _ _ _ _) (.nil _)
    exact (bad_messages_end_the_server env .default false default_configured _ _ hh
      ⟨[[47, 97]], by decide, by simp [opened]⟩ (fun _ => 0)).2 [47, 97] ⟨1, []⟩ 2 [] (1, 0) (1, 0) (by simp [Client.set])
      (by decide)

/-- A history that meets the hypotheses: a document is opened, changed twice in one notification, another one is
changed without having been opened, and the first request of the server is answered. -/
example : ∃ steps : List Step, (∀ m cuts, Step.message m cuts ∈ steps → KeepsTo serverCapabilities m) ∧
    (∀ st, st ∈ steps → Readable st) ∧ (∀ id, id ∈ answers steps → true = true ∧ id = 0) ∧ (answers steps).Nodup ∧
    FewPaths steps ∧ sent [47, 97] none steps = some ⟨2, ['z', '\r', '\n']⟩ ∧ sent [47, 98] none steps = none := by
  refine ⟨[.message (.didOpen (some [47, 97]) 1 ['x']) (fun _ => 0), .message (.response 0) (fun _ => 0),
    .message (.didChange (some [47, 97]) 2 [⟨none, ['y']⟩, ⟨none, ['z', '\r', '\n']⟩]) (fun _ => 0), .tasks (fun _ => 0),
    .message (.didChange (some [47, 98]) 5 [⟨none, []⟩]) (fun _ => 0)], ?_, ?_, ?_, ?_, ⟨[[47, 97]], by decide, ?_⟩, rfl, rfl⟩
  · intro m cuts h
    simp at h
    rcases h with ⟨rfl, _⟩ | ⟨rfl, _⟩ | ⟨rfl, _⟩ | ⟨rfl, _⟩
    · rfl
    · trivial
    · show ∀ c, c ∈ _ → _; simp
    · show ∀ c, c ∈ _ → _; simp
  · intro st h
    simp at h
    rcases h with rfl | rfl | rfl | rfl | rfl <;> trivial
  · simp [answers]
  · simp [answers]
  · simp [opened]

end Verif.Server
