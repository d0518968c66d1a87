import Verif.Disjoint.Model

/-! Property C41: which sets of edits are accepted. -/

namespace Verif.Disjoint

open Verif.Edits (Position Range)

/-! ## Specification -/

/-- Position `a` is not after position `b`. -/
def NotAfter (a b : Position) : Prop :=
  a.line < b.line ∨ (a.line = b.line ∧ a.character ≤ b.character)

/-- The end of the range is not before its start. -/
def WellFormed (r : Range) : Prop := NotAfter r.start r.stop

/-- Two ranges do not overlap; they may touch. -/
def Apart (a b : Range) : Prop := NotAfter a.stop b.start ∨ NotAfter b.stop a.start

/-- All ranges a completion would change, the insert/replace pair being represented by its
replace range. -/
def touched (c : CompletionItem) (additional : List Range) : List Range :=
  (match c.textEdit with
    | some (.edit r) => [r]
    | some (.insertAndReplace _ replace) => [replace]
    | none => []) ++ c.additionalTextEdits.getD [] ++ additional

/-- The insert range of an insert/replace pair is a prefix of the replace range. -/
def InsertIsPrefix (c : CompletionItem) : Prop :=
  ∀ insert replace, c.textEdit = some (.insertAndReplace insert replace) →
    replace.start = insert.start ∧ NotAfter insert.start insert.stop ∧ NotAfter insert.stop replace.stop

/-! ## Proof -/

theorem posLe_iff (a b : Position) : posLe a b = true ↔ NotAfter a b := by
  simp [posLe, NotAfter]

theorem rangeLe_iff (a b : Range) : rangeLe a b = true ↔
    (NotAfter a.start b.start ∧ ¬ NotAfter b.start a.start) ∨ (a.start = b.start ∧ NotAfter a.stop b.stop) := by
  simp [rangeLe, ← posLe_iff]

theorem notAfter_trans {a b c : Position} (h1 : NotAfter a b) (h2 : NotAfter b c) : NotAfter a c := by
  unfold NotAfter at *; omega

theorem rangeLe_trans (a b c : Range) (h1 : rangeLe a b = true) (h2 : rangeLe b c = true) :
    rangeLe a c = true := by
  rw [rangeLe_iff] at *
  obtain ⟨⟨a1, a2⟩, ⟨a3, a4⟩⟩ := a
  obtain ⟨⟨b1, b2⟩, ⟨b3, b4⟩⟩ := b
  obtain ⟨⟨c1, c2⟩, ⟨c3, c4⟩⟩ := c
  simp only [NotAfter, Position.mk.injEq] at *
  omega

theorem rangeLe_total (a b : Range) : (rangeLe a b || rangeLe b a) = true := by
  rw [Bool.or_eq_true, rangeLe_iff, rangeLe_iff]
  obtain ⟨⟨a1, a2⟩, ⟨a3, a4⟩⟩ := a
  obtain ⟨⟨b1, b2⟩, ⟨b3, b4⟩⟩ := b
  simp only [NotAfter, Position.mk.injEq] at *
  omega

theorem neighbours_iff (l : List Range) (hs : l.Pairwise (fun a b => rangeLe a b = true))
    (hw : ∀ r ∈ l, WellFormed r) : neighboursDisjoint l = true ↔ l.Pairwise Apart := by
  induction l with
  | nil => simp [neighboursDisjoint]
  | cons a l ih =>
    cases l with
    | nil => simp [neighboursDisjoint]
    | cons b rest =>
      have hs' := List.pairwise_cons.1 hs
      have hi := ih hs'.2 (fun r hr => hw r (by simp [hr]))
      simp only [neighboursDisjoint, Bool.and_eq_true, hi, posLe_iff]
      rw [List.pairwise_cons (a := a)]
      constructor
      · rintro ⟨h1, h2⟩
        refine ⟨?_, h2⟩
        intro x hx
        left
        rcases List.mem_cons.1 hx with rfl | hx
        · exact h1
        · have hbx := (List.pairwise_cons.1 hs'.2).1 x hx
          rw [rangeLe_iff] at hbx
          refine notAfter_trans h1 ?_
          rcases hbx with h | h
          · exact h.1
          · rw [h.1]; unfold NotAfter; omega
      · rintro ⟨h1, h2⟩
        refine ⟨?_, h2⟩
        rcases h1 b (by simp) with h | h
        · exact h
        · have hab := hs'.1 b (by simp)
          have hwb := hw b (by simp)
          rw [rangeLe_iff] at hab
          obtain ⟨⟨a1, a2⟩, ⟨a3, a4⟩⟩ := a
          obtain ⟨⟨b1, b2⟩, ⟨b3, b4⟩⟩ := b
          simp only [NotAfter, WellFormed, Position.mk.injEq] at *
          omega

theorem apart_symm {a b : Range} (h : Apart a b) : Apart b a := by
  unfold Apart at *; exact h.symm

/-- C41: a completion with additional edits is reported as conflict free exactly when all the
ranges it would change are pairwise apart (and an insert range is a prefix of its replace
range).  Quantifies over all completions whose ranges are well formed. -/
theorem disjoint_iff_pairwise_apart (c : CompletionItem) (additional : List Range)
    (hw : ∀ r ∈ touched c additional, WellFormed r) :
    allEditsAreDisjoint c additional = true ↔
      InsertIsPrefix c ∧ (touched c additional).Pairwise Apart := by
  have key : ∀ l : List Range, (∀ r ∈ l, WellFormed r) →
      (neighboursDisjoint (l.mergeSort rangeLe) = true ↔ l.Pairwise Apart) := by
    intro l hl
    have hp := List.mergeSort_perm l rangeLe
    rw [neighbours_iff _ (List.pairwise_mergeSort rangeLe_trans rangeLe_total l)
      (fun r hr => hl r (hp.mem_iff.1 hr))]
    exact hp.pairwise_iff apart_symm
  unfold allEditsAreDisjoint collectRanges InsertIsPrefix
  unfold touched at *
  cases h : c.textEdit with
  | none => simp only [h] at hw ⊢; simpa using key _ hw
  | some e =>
    cases e with
    | edit r => simp only [h] at hw ⊢; simpa using key _ hw
    | insertAndReplace i r =>
      simp only [h] at hw ⊢
      have hk := key _ hw
      by_cases hc : r.start ≠ i.start ∨ posGt i.start i.stop = true ∨ posGt i.stop r.stop = true
      · rw [if_pos hc]
        simp only [Bool.false_eq_true, false_iff, not_and]
        intro hp
        obtain ⟨p1, p2, p3⟩ := hp i r rfl
        simp only [posGt, Bool.not_eq_true', ← Bool.not_eq_true, posLe_iff] at hc
        simp [p1, p2, p3] at hc
      · rw [if_neg hc]
        simp only
        rw [hk]
        simp only [posGt, Bool.not_eq_true', ← Bool.not_eq_true, posLe_iff, not_or, Classical.not_not] at hc
        constructor
        · intro h
          refine ⟨?_, h⟩
          intro i' r' he
          simp at he
          obtain ⟨rfl, rfl⟩ := he
          exact hc
        · exact fun h => h.2

/-- Two touching edits given in the wrong order are accepted, two overlapping ones are not. -/
example : allEditsAreDisjoint ⟨some (.edit ⟨⟨1, 4⟩, ⟨2, 0⟩⟩), some [⟨⟨0, 0⟩, ⟨1, 4⟩⟩]⟩ [] = true := by
  rw [disjoint_iff_pairwise_apart]
  · exact ⟨by simp [InsertIsPrefix], by simp [touched, Apart, NotAfter]⟩
  · simp [touched, WellFormed, NotAfter]

example : allEditsAreDisjoint ⟨some (.edit ⟨⟨1, 4⟩, ⟨2, 0⟩⟩), none⟩ [⟨⟨0, 0⟩, ⟨1, 5⟩⟩] = false := by
  rw [← Bool.not_eq_true, disjoint_iff_pairwise_apart]
  · simp [touched, Apart, NotAfter]
  · simp [touched, WellFormed, NotAfter]

end Verif.Disjoint
