import Verif.Server.Closed
import Verif.Edits.Exact

/-!
Which messages end the server (C77).
-/

set_option autoImplicit false

namespace Verif.Server

open Verif.FileSet Verif.Vfs Verif.Db Verif.Diagnostics Verif.LineEndings Verif.Server.Spec

/-! ## Specification -/

namespace Spec

/-- The changes of a notification cannot be made in the text (what this means is said by
`impossible_iff`). -/
def Impossible (text : Text) (changes : List Edits.Change) : Prop := Edits.applyDocumentChanges text changes = none

/-- The messages that end the server when the client is in state `c`. -/
inductive Kills (c : Client) : Msg → Prop where
  /-- A notification with parameters of the wrong shape. -/
  | malformed : Kills c .malformed
  /-- A response to a request the server has not sent, or whose response it already has. -/
  | strayResponse (id : Nat) : id ∉ c.unanswered → Kills c (.response id)
  /-- A change of an open document that cannot be made. -/
  | badChange (p : Bytes) (v : Int) (changes : List Edits.Change) (d : Doc) : c.docs p = some d →
      Impossible d.text changes → Kills c (.didChange (some p) v changes)

end Spec

/-- Changes cannot be made if one of them has a position that leads to no point of the text the
earlier ones produced, or an end before its start. -/
theorem impossible_iff (t : Text) (es : List Edits.Spec.Edit)
    (hwf : ∀ a b x, Edits.Spec.Edit.ranged a b x ∈ es → a.1 ≤ b.1) :
    Impossible t (es.map Edits.toChange) ↔ ¬ ∃ t', Edits.Spec.Does t es t' := by
  unfold Impossible
  cases h : Edits.applyDocumentChanges t (es.map Edits.toChange) with
  | none =>
    simp only [true_iff]
    rintro ⟨t', ht⟩
    rw [(Edits.changes_exactly t t' es hwf).2 ht] at h
    cases h
  | some u =>
    simp only [reduceCtorEq, false_iff, Classical.not_not]
    exact ⟨u, (Edits.changes_exactly t u es hwf).1 h⟩

/-- A change that can be made, whether the protocol allows it or not. -/
theorem onMessage_change {ps c s} (h : Base ps c s) (hps : ps.length ≤ maxId) (p : Bytes) (v : Int)
    (changes : List Edits.Change) (d : Doc) (t' : Text) (hd : c.docs p = some d)
    (ht : Edits.applyDocumentChanges d.text changes = some t') :
    ∃ s', s.onMessage (.didChange (some p) v changes) = some s' ∧ Base ps (c.set p (some ⟨v, t'⟩)) s' := by
  have hin : p ∈ ps := by
    have hat := h.text p d hd
    unfold at_ at hat
    cases hi : indexOf (VfsPath.pathBuf p) s.vfs.interner with
    | none => rw [hi] at hat; simp at hat
    | some j =>
      obtain ⟨b, hb, he⟩ := h.within _ (List.mem_of_getElem? (indexOf_some hi))
      simp at he; subst he; exact hb
  obtain ⟨vfs, b, hset, hb⟩ := base_set h p hin hps v t'
    { s.memDocs with docs := s.memDocs.docs.insert (.pathBuf p) v } rfl
  obtain ⟨id, hid, _, _, hcont⟩ := fileId_of_at h (h.text p d hd)
  refine ⟨{ s with
    memDocs := { s.memDocs with docs := s.memDocs.docs.insert (.pathBuf p) v }, vfs := vfs }, ?_, hb⟩
  simp only [State.onMessage, State.didChange]
  have hget : s.memDocs.docs.get (VfsPath.pathBuf p) = some d.version := by rw [h.docs, hd]; rfl
  rw [hget]
  simp only [hid, hcont, ht, hset]

/-- **C77.**  After a history of a conforming client, exactly these messages end the server: malformed
notifications, stray responses, and changes of an open document that cannot be made.  Every other
message, conforming or not, leaves it running. -/
theorem crashes_exactly (env : Env) (cfg : SourceRootConfig) (dyn : Bool) (hcfg : Configured cfg)
    (steps : List Step) (c : Client) (hist : History (Client.init dyn) steps c) (s : State)
    (hrun : run env cfg dyn steps = .running s) (m : Msg) (cuts : Nat → Nat)
    (hfew : FewPaths (steps ++ [.message m cuts])) (hexit : m ≠ .exit) :
    (run env cfg dyn (steps ++ [.message m cuts]) = .panicked ↔ Kills c m) ∧
    (¬ Kills c m → ∃ s', run env cfg dyn (steps ++ [.message m cuts]) = .running s') := by
  obtain ⟨ps, hps, hopen⟩ := hfew
  have hinv : Inv ps c s := by
    obtain ⟨s1, e1, e2⟩ := runFrom_ok env hps hist
      (fun p hp => hopen p (by rw [opened_append]; exact List.mem_append_left _ hp)) _ (init_ok ps cfg dyn hcfg)
    unfold run at hrun
    rw [hrun] at e1; cases e1
    exact e2
  have hstep : run env cfg dyn (steps ++ [.message m cuts]) = step env s (.message m cuts) := by
    unfold run at *
    rw [runFrom_append, hrun]
    simp only [runFrom]
    split
    · rename_i h; rw [h]
    · rfl
  have hs : step env s (.message m cuts) = match (s.onMessage m).bind (State.afterEvent env cuts) with
      | none => .panicked
      | some s => .running s := by
    cases m <;> first | exact absurd rfl hexit | rfl
  rw [hstep, hs]
  -- it suffices to show when the message itself is handled
  suffices h : (Kills c m → s.onMessage m = none) ∧
      (¬ Kills c m → ∃ c1 s1, s.onMessage m = some s1 ∧ Base ps c1 s1) by
    have hlive : ¬ Kills c m → ∃ s', (s.onMessage m).bind (State.afterEvent env cuts) = some s' := by
      intro hk
      obtain ⟨c1, s1, h1, hb⟩ := h.2 hk
      obtain ⟨_, _, _, s2, _, h2, _⟩ := afterEvent_ok env cuts hb
      exact ⟨s2, by rw [h1]; exact h2⟩
    refine ⟨⟨fun hp => ?_, fun hk => by rw [h.1 hk]; rfl⟩, fun hk => ?_⟩
    · refine Classical.byContradiction fun hk => ?_
      obtain ⟨s', e⟩ := hlive hk
      rw [e] at hp; cases hp
    · obtain ⟨s', e⟩ := hlive hk
      exact ⟨s', by rw [e]⟩
  have ho : ∀ p v t, m = .didOpen (some p) v t → p ∈ ps := by
    rintro p v t rfl
    exact hopen p (by rw [opened_append]; simp [opened])
  have say : ∀ c', Says c m c' → ∃ c1 s1, s.onMessage m = some s1 ∧ Base ps c1 s1 := by
    intro c' hsay
    obtain ⟨s1, h1, h2, _⟩ := onMessage_ok hinv.toBase hps hsay ho
    exact ⟨c', s1, h1, h2⟩
  refine ⟨fun hk => ?_, fun hk => ?_⟩
  · cases hk with
    | malformed => rfl
    | strayResponse id hid =>
      simp only [State.onMessage, State.completeRequest]
      rw [hinv.outgoing, if_neg hid]
    | badChange p v changes d hd hbad =>
      obtain ⟨id, hid, _, _, hcont⟩ := fileId_of_at hinv.toBase (hinv.text p d hd)
      have hget : s.memDocs.docs.get (VfsPath.pathBuf p) = some d.version := by rw [hinv.docs, hd]; rfl
      unfold Impossible at hbad
      simp only [State.onMessage, State.didChange, hget, hid, hcont, hbad]
  · cases m with
    | shutdown id b => exact say _ (.shutdown c id b)
    | otherRequest id => exact say _ (.otherRequest c id)
    | cancel id => exact say _ (.cancel c id)
    | workDoneProgressCancel => exact say _ (.workDoneProgressCancel c)
    | otherNotification => exact say _ (.otherNotification c)
    | exit => exact absurd rfl hexit
    | malformed => exact absurd .malformed hk
    | response id =>
      by_cases hid : id ∈ c.unanswered
      · exact say _ (.response c id hid)
      · exact absurd (.strayResponse id hid) hk
    | didOpen uri v t =>
      cases uri with
      | none => exact say _ (.openOther c v t)
      | some p => exact say _ (.openFile c p v t)
    | didClose uri =>
      cases uri with
      | none => exact say _ (.closeOther c)
      | some p => exact say _ (.closeFile c p)
    | didChange uri v changes =>
      cases uri with
      | none => exact say _ (.changeOther c v changes)
      | some p =>
        cases hd : c.docs p with
        | none => exact say _ (.changeUnopened c p v changes hd)
        | some d =>
          cases ht : Edits.applyDocumentChanges d.text changes with
          | none => exact absurd (.badChange p v changes d hd ht) hk
          | some t' =>
            obtain ⟨s1, h1, h2⟩ := onMessage_change hinv.toBase hps p v changes d t' hd ht
            exact ⟨_, s1, h1, h2⟩

/-- **C77 is violated** by every server: after any conforming history, a malformed notification
ends it, and so does an insertion in a line an open document does not have. -/
theorem bad_messages_end_the_server (env : Env) (cfg : SourceRootConfig) (dyn : Bool) (hcfg : Configured cfg)
    (steps : List Step) (c : Client) (hist : History (Client.init dyn) steps c) (hfew : FewPaths steps)
    (cuts : Nat → Nat) :
    run env cfg dyn (steps ++ [.message .malformed cuts]) = .panicked ∧
    ∀ p d v new' a b, c.docs p = some d → newlineCount d.text < a.1 →
      run env cfg dyn (steps ++ [.message (.didChange (some p) v [Edits.toChange (.ranged a b new')]) cuts]) = .panicked := by
  obtain ⟨s, hs⟩ := conforming_traffic_does_not_crash env cfg dyn hcfg steps c hist hfew
  obtain ⟨ps, h1, h2⟩ := hfew
  have few : ∀ m, (∀ p, p ∉ opened [.message m cuts]) → FewPaths (steps ++ [.message m cuts]) := by
    intro m hm
    refine ⟨ps, h1, fun p hp => ?_⟩
    rw [opened_append] at hp
    rcases List.mem_append.1 hp with hp | hp
    · exact h2 p hp
    · exact absurd hp (hm p)
  refine ⟨((crashes_exactly env cfg dyn hcfg steps c hist s hs .malformed cuts
    (few _ (by simp [opened])) (by simp)).1).2 .malformed, ?_⟩
  intro p d v new' a b hd ha
  refine ((crashes_exactly env cfg dyn hcfg steps c hist s hs _ cuts (few _ (by simp [opened])) (by simp)).1).2 ?_
  exact .badChange p v _ d hd (Edits.line_past_end_crashes d.text new' a b (Or.inl ha))

/-- The sample history meets the hypotheses; a reversed range inside the text is not a crash of the
kind above but one of `Impossible`; an edit the protocol does not allow need not be a crash. -/
example : Kills sampleClient (.response 0) ∧ ¬ Kills sampleClient (.didClose (some pathB)) ∧
    Kills sampleClient (.didChange (some pathA) 3 [⟨some ⟨⟨1, 1⟩, ⟨0, 0⟩⟩, []⟩]) ∧
    ¬ Kills sampleClient (.didChange (some pathA) 3 [⟨some ⟨⟨0, 3⟩, ⟨0, 4⟩⟩, []⟩]) := by
  refine ⟨.strayResponse 0 (by simp [sampleClient]), (fun h => by cases h), ?_, ?_⟩
  · exact .badChange pathA 3 _ ⟨2, ['x', '\r', '\n', 'z']⟩ rfl (by unfold Impossible; decide)
  · intro h
    cases h with
    | badChange _ _ _ d hd hbad =>
      have : d = ⟨2, ['x', '\r', '\n', 'z']⟩ := by
        have h0 : sampleClient.docs pathA = some ⟨2, ['x', '\r', '\n', 'z']⟩ := rfl
        rw [h0] at hd; cases hd; rfl
      subst this
      exact absurd hbad (by unfold Impossible; decide)

end Verif.Server
