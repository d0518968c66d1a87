import Verif.Stdx.Model

/-!
What `trim` leaves of a text: the words of annotations (C70) and of tags (C71).
-/

set_option autoImplicit false

namespace Verif.Stdx

/-! ### Specification -/

/-- `words` is the text without the blanks around it: it neither begins nor ends with a blank. -/
def Spec.Words (text words : Text) : Prop :=
  (∃ before after, text = before ++ words ++ after ∧ (∀ c ∈ before, Lexer.isUnicodeWs c = true) ∧
    ∀ c ∈ after, Lexer.isUnicodeWs c = true) ∧
  (∀ c, words.head? = some c → Lexer.isUnicodeWs c = false) ∧ ∀ c, words.getLast? = some c → Lexer.isUnicodeWs c = false

open Spec

theorem dropWhile_parts (p : Char → Bool) (s : Text) :
    ∃ a, s = a ++ s.dropWhile p ∧ (∀ c ∈ a, p c = true) ∧ ∀ c, (s.dropWhile p).head? = some c → p c = false := by
  induction s with
  | nil => exact ⟨[], rfl, by simp, by simp⟩
  | cons x s ih =>
    by_cases hx : p x = true
    · obtain ⟨a, h1, h2, h3⟩ := ih
      rw [List.dropWhile_cons, if_pos hx]
      refine ⟨x :: a, by rw [List.cons_append, ← h1], ?_, h3⟩
      intro c hc
      rcases List.mem_cons.1 hc with rfl | hc
      · exact hx
      · exact h2 c hc
    · rw [List.dropWhile_cons, if_neg hx]
      exact ⟨[], rfl, by simp, by intro c hc; simp only [List.head?_cons, Option.some.injEq] at hc; subst hc; simpa using hx⟩

theorem dropWhile_blanks (p : Char → Bool) (a r : Text) (ha : ∀ c ∈ a, p c = true) (hr : ∀ c, r.head? = some c → p c = false) :
    (a ++ r).dropWhile p = r := by
  induction a with
  | nil =>
    cases r with
    | nil => rfl
    | cons c r => simp [hr c rfl]
  | cons x a ih =>
    rw [List.cons_append, List.dropWhile_cons, if_pos (ha x (by simp))]
    exact ih fun c hc => ha c (by simp [hc])

/-- C70, C71: for every text there is exactly one such part, and trimming gives it. -/
theorem trim_iff (text words : Text) : trim text = words ↔ Words text words := by
  constructor
  · rintro rfl
    obtain ⟨a, h1, h2, h3⟩ := dropWhile_parts Lexer.isUnicodeWs text
    obtain ⟨b, g1, g2, g3⟩ := dropWhile_parts Lexer.isUnicodeWs (trimStart text).reverse
    have e : trimStart text = trim text ++ b.reverse := by
      have := congrArg List.reverse g1
      rw [List.reverse_reverse, List.reverse_append] at this
      exact this
    refine ⟨⟨a, b.reverse, ?_, h2, fun c hc => g2 c (by simpa using hc)⟩, ?_, ?_⟩
    · rw [List.append_assoc, ← e]
      exact h1
    · intro c hc
      refine h3 c ?_
      show (trimStart text).head? = some c
      rw [e, List.head?_append, hc]
      rfl
    · intro c hc
      refine g3 c ?_
      rw [trim, List.getLast?_reverse] at hc
      exact hc
  · rintro ⟨⟨a, b, rfl, ha, hb⟩, h1, h2⟩
    have hb' : ∀ c ∈ b.reverse, Lexer.isUnicodeWs c = true := fun c hc => hb c (by simpa using hc)
    cases words with
    | nil =>
      have : (a ++ [] ++ b).dropWhile Lexer.isUnicodeWs = [] := by
        have := dropWhile_blanks Lexer.isUnicodeWs (a ++ b) [] (by
          intro c hc
          rcases List.mem_append.1 hc with hc | hc
          · exact ha c hc
          · exact hb c hc) (by simp)
        simpa using this
      rw [trim, trimStart, this]; rfl
    | cons x ws =>
      have e1 : trimStart (a ++ (x :: ws) ++ b) = (x :: ws) ++ b := by
        rw [List.append_assoc]
        exact dropWhile_blanks _ a _ ha (fun c hc => h1 c hc)
      rw [trim, e1, List.reverse_append, dropWhile_blanks _ b.reverse _ hb', List.reverse_reverse]
      intro c hc
      rw [List.head?_reverse] at hc
      exact h2 c hc

/-- Witness: blanks within the words stay. -/
example : trim "  two words \n".toList = "two words".toList := by decide

end Verif.Stdx
