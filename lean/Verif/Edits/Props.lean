import Verif.Edits.Lemmas

/-! Properties C06 and C07: document edits. -/

namespace Verif.Edits

open Verif.LineIndex

/-- The change event a client sends for an edit of the specification. -/
def toChange : Spec.Edit → Change
  | .ranged start stop text => ⟨some ⟨⟨start.1, start.2⟩, ⟨stop.1, stop.2⟩⟩, text⟩
  | .full text => ⟨none, text⟩

/-! ## C06 -/

/-- C06: a list of changes has the effect (result text or panic) of sending each change in its
own notification, in order; so every change is interpreted in the text produced by the
previous ones and the reused line table is unobservable.  Quantifies over all texts and all
change lists in which no range starts on a later line than it ends. -/
theorem changes_are_sequential (t : Text) (changes : List Change)
    (hwf : ∀ c ∈ changes, ∀ r, c.range = some r → r.start.line ≤ r.stop.line) :
    applyDocumentChanges t changes
      = changes.foldlM (fun t c => applyDocumentChanges t [c]) t := by
  rw [apply_eq_map, foldlM_fresh _ _ (by rfl) hwf]
  have : (fun t c => applyDocumentChanges t [c]) = freshStep := by
    funext t c; exact apply_singleton t c
  rw [this]

example : ∀ c ∈ [Change.mk (some ⟨⟨1, 0⟩, ⟨1, 1⟩⟩) ['x'], Change.mk (some ⟨⟨0, 0⟩, ⟨2, 1⟩⟩) []],
    ∀ r, c.range = some r → r.start.line ≤ r.stop.line := by decide

/-- The hypothesis is needed: with a range that starts on a later line than it ends the stale
table is used and the result differs from the sequential one.  (Such a range is malformed
according to the protocol, but the server accepts it silently.) -/
theorem reversed_range_uses_stale_index :
    let t : Text := ['a', '\n', 'b', '\n', 'c']
    let c1 : Change := ⟨some ⟨⟨1, 0⟩, ⟨1, 0⟩⟩, ['X', 'X']⟩
    let c2 : Change := ⟨some ⟨⟨2, 0⟩, ⟨0, 7⟩⟩, ['!']⟩
    applyDocumentChanges t [c1, c2] = some ['a', '\n', 'X', 'X', '!'] ∧
    [c1, c2].foldlM (fun t c => applyDocumentChanges t [c]) t
      = some ['a', '\n', 'X', 'X', 'b', '\n', '!'] := by decide

/-! ## C07 -/

/-- C07: one ranged edit keeps the text before its start and after its end and replaces what is
between; an edit without range replaces the document. -/
theorem edit_replaces_range (t t' : Text) (e : Spec.Edit) (h : Spec.EditsTo t e t') :
    applyDocumentChanges t [toChange e] = some t' := by
  rw [apply_singleton]
  cases h with
  | ranged p m s new => exact freshStep_ranged p m s new
  | full new => rfl

/-- C06 and C07 together: a whole notification does what the protocol says. -/
theorem changes_follow_protocol (t t' : Text) (es : List Spec.Edit) (h : Spec.EditsSeq t es t') :
    applyDocumentChanges t (es.map toChange) = some t' := by
  have hwf : ∀ t es t', Spec.EditsSeq t es t' →
      ∀ c ∈ es.map toChange, ∀ r, c.range = some r → r.start.line ≤ r.stop.line := by
    intro t es t' h
    induction h with
    | nil => simp
    | cons he _ ih =>
      intro c hc r hr
      simp only [List.map_cons, List.mem_cons] at hc
      rcases hc with rfl | hc
      · cases he with
        | ranged p m s new =>
          simp only [toChange, Option.some.injEq] at hr
          subst hr
          simp [Spec.posOf, newlineCount]
        | full => simp [toChange] at hr
      · exact ih c hc r hr
  rw [changes_are_sequential t _ (hwf t es t' h)]
  clear hwf
  induction h with
  | nil => rfl
  | cons he _ ih =>
    simp only [List.map_cons, List.foldlM_cons]
    rw [edit_replaces_range _ _ _ he]
    exact ih

/-- The specification is satisfiable with multi-byte characters and several lines. -/
example : Spec.EditsSeq ['a', '😀', '\n', 'ț', 'b']
    [.ranged (1, 0) (1, 1) ['€'], .ranged (0, 3) (1, 1) [], .full ['z']] ['z'] := by
  refine .cons (t' := ['a', '😀', '\n', '€', 'b']) ?_ (.cons (t' := ['a', '😀', 'b']) ?_ (.cons (.full _ _) (.nil _)))
  · exact Spec.EditsTo.ranged ['a', '😀', '\n'] ['ț'] ['b'] ['€']
  · exact Spec.EditsTo.ranged ['a', '😀'] ['\n', '€'] ['b'] []

end Verif.Edits
