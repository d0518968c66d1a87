import Verif.LineEndings.Lemmas

/-! Property C11: line-ending normalisation. -/

namespace Verif.LineEndings

/-- C11: on the bytes of every text the in-place loop does not panic and produces the bytes of
the text in which every CR LF pair became LF and nothing else changed (`CrlfToLf`), together
with `dos` exactly when the text contained a carriage return. -/
theorem normalize_replaces_crlf (t : Text) :
    ∃ u, CrlfToLf t u ∧
      normalizeBytes (bytes t) = some (bytes u, if '\r' ∈ t then LineEndings.dos else LineEndings.unix) := by
  refine ⟨strip t, crlfToLf_strip _ t (Nat.le_refl _), ?_⟩
  rw [normalizeBytes_eq, ← bytes_strip _ t (Nat.le_refl _)]
  congr 2
  simp only [mem_bytes_CR]

/-- The specification determines the result. -/
theorem crlfToLf_functional {t u v : Text} (h1 : CrlfToLf t u) (h2 : CrlfToLf t v) : u = v :=
  crlfToLf_unique h1 h2

/-- The text-level function used in the rest of the model agrees with the byte-level loop. -/
theorem normalize_agrees (t : Text) :
    normalizeBytes (bytes t) = some (bytes (normalize t).1, (normalize t).2) := by
  rw [normalizeBytes_eq, ← bytes_strip _ t (Nat.le_refl _)]
  simp only [normalize]
  congr 2
  simp only [mem_bytes_CR, List.contains_iff_mem]

/-- C11: a normalised text is unchanged by normalising again, unless removing one pair made
another (a carriage return directly before a pair). -/
theorem normalize_idempotent_partial (t : Text)
    (h : ∀ p q, t ≠ p ++ '\r' :: '\r' :: '\n' :: q) :
    (normalize (normalize t).1).1 = (normalize t).1 := by
  have key : ∀ n (t : Text), t.length ≤ n → (∀ p q, t ≠ p ++ '\r' :: '\r' :: '\n' :: q) →
      strip (strip t) = strip t ∧ ((strip t).head? = some '\n' →
        t.head? = some '\n' ∨ ∃ q, t = '\r' :: '\n' :: q) := by
    intro n
    induction n with
    | zero => intro t hn _; cases t with
      | nil => exact ⟨rfl, by simp [strip, normalize.strip]⟩
      | cons c cs => simp at hn
    | succ n ih =>
      intro t hn h
      cases t with
      | nil => exact ⟨rfl, by simp [strip, normalize.strip]⟩
      | cons c cs =>
        by_cases hp : c = '\r' ∧ cs.head? = some '\n'
        · obtain ⟨rfl, h2⟩ := hp
          cases cs with
          | nil => simp at h2
          | cons d ds =>
            simp at h2; subst h2
            rw [strip_pair]
            have := ih ds (by simp at hn ⊢; omega)
              (by intro p q he; exact h ('\r' :: '\n' :: p) q (by simp [he]))
            refine ⟨?_, fun _ => Or.inr ⟨ds, rfl⟩⟩
            rw [strip_cons_of_ne _ _ (by simp), this.1]
        · rw [strip_cons_of_ne c cs hp]
          have hi := ih cs (by simp at hn ⊢; omega)
            (by intro p q he; exact h (c :: p) q (by simp [he]))
          refine ⟨?_, ?_⟩
          · rw [strip_cons_of_ne, hi.1]
            rintro ⟨rfl, h2⟩
            rcases hi.2 h2 with h3 | ⟨q, rfl⟩
            · exact hp ⟨rfl, h3⟩
            · exact h [] q (by simp)
          · intro hh
            simp at hh
            subst hh; left; rfl
  exact (key _ t (Nat.le_refl _) h).1

example : normalizeBytes (bytes ['a', '\r', '\n', '\r', '\r', '\n', 'ț', '\r'])
    = some (bytes ['a', '\n', '\r', '\n', 'ț', '\r'], LineEndings.dos) := by decide

/-- The excluded case is real: normalisation is not idempotent on "\r\r\n". -/
theorem normalize_not_idempotent :
    (normalize (normalize ['\r', '\r', '\n']).1).1 ≠ (normalize ['\r', '\r', '\n']).1 := by decide

theorem crlfToLf_length {t u : Text} (h : CrlfToLf t u) :
    u.length ≤ t.length ∧ ∀ p q, t = p ++ '\r' :: '\n' :: q → u.length < t.length := by
  induction h with
  | nil => exact ⟨Nat.le_refl _, fun p q h => by cases p <;> simp at h⟩
  | pair _ ih =>
    have := ih.1
    exact ⟨by simp only [List.length_cons]; omega, fun _ _ _ => by simp only [List.length_cons]; omega⟩
  | @keep c t u hk _ ih =>
    have := ih.1
    refine ⟨by simp only [List.length_cons]; omega, fun p q h => ?_⟩
    cases p with
    | nil =>
      simp only [List.nil_append, List.cons.injEq] at h
      exact absurd ⟨h.1, by rw [h.2]; rfl⟩ hk
    | cons d p =>
      simp only [List.cons_append, List.cons.injEq] at h
      have := ih.2 p q h.2
      simp only [List.length_cons]; omega

theorem crlfToLf_makes_pair {t u : Text} (h : CrlfToLf t u) (p q : Text) (ht : t = p ++ '\r' :: '\r' :: '\n' :: q) :
    ∃ a b, u = a ++ '\r' :: '\n' :: b := by
  induction h generalizing p with
  | nil => cases p <;> simp at ht
  | @pair t u h ih =>
    match p, ht with
    | [], ht => simp at ht
    | [_], ht => simp at ht
    | _ :: _ :: p, ht =>
      simp only [List.cons_append, List.cons.injEq] at ht
      obtain ⟨a, b, e⟩ := ih p ht.2.2
      exact ⟨'\n' :: a, b, by rw [e]; rfl⟩
  | @keep c t u hk h ih =>
    cases p with
    | nil =>
      simp only [List.nil_append, List.cons.injEq] at ht
      obtain ⟨rfl, rfl⟩ := ht
      cases h with
      | pair h => exact ⟨[], _, rfl⟩
      | keep hk' h => exact absurd ⟨rfl, rfl⟩ hk'
    | cons d p =>
      simp only [List.cons_append, List.cons.injEq] at ht
      obtain ⟨a, b, e⟩ := ih p ht.2
      exact ⟨c :: a, b, by rw [e]; rfl⟩

/-- C11: a normalised text is unchanged by normalising again just when no carriage return stood directly before a
pair. -/
theorem normalize_idempotent_iff (t : Text) :
    (normalize (normalize t).1).1 = (normalize t).1 ↔ ∀ p q, t ≠ p ++ '\r' :: '\r' :: '\n' :: q := by
  refine ⟨fun h p q ht => ?_, normalize_idempotent_partial t⟩
  have h1 : CrlfToLf t (normalize t).1 := crlfToLf_strip _ t (Nat.le_refl _)
  have h2 : CrlfToLf (normalize t).1 (normalize (normalize t).1).1 := crlfToLf_strip _ _ (Nat.le_refl _)
  obtain ⟨a, b, e⟩ := crlfToLf_makes_pair h1 p q ht
  have := (crlfToLf_length h2).2 a b e
  rw [h] at this
  omega

end Verif.LineEndings
