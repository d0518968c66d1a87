import Verif.Stdx.ProcessModel

set_option autoImplicit false

/-!
Decoding gives back a text that was encoded.
-/

namespace Verif.Stdx

/-- The bytes of a character in UTF-8. -/
def utf8 (c : Char) : List Nat :=
  let n := c.toNat
  if n < 0x80 then [n]
  else if n < 0x800 then [0xC0 + n / 64, 0x80 + n % 64]
  else if n < 0x10000 then [0xE0 + n / 4096, 0x80 + n / 64 % 64, 0x80 + n % 64]
  else [0xF0 + n / 262144, 0x80 + n / 4096 % 64, 0x80 + n / 64 % 64, 0x80 + n % 64]

/-- The bytes of a text. -/
def utf8s (t : Text) : List Nat := t.flatMap utf8

theorem char_valid (c : Char) : c.toNat < 0xD800 ∨ (0xDFFF < c.toNat ∧ c.toNat < 0x110000) := by
  have := c.valid
  simpa [UInt32.isValidChar, Nat.isValidChar] using this

theorem lossy_char (c : Char) (rest : List Nat) : lossy (utf8 c ++ rest) = c :: lossy rest := by
  have hv := char_valid c
  have hof : Char.ofNat c.toNat = c := Char.ofNat_toNat c
  unfold utf8
  simp only
  generalize hn : c.toNat = n at *
  by_cases h1 : n < 0x80
  · rw [if_pos h1, List.singleton_append, lossy]
    have : continuations n = some [] := by unfold continuations; rw [if_pos h1]
    have hm : matching [] rest = [] := by cases rest <;> rfl
    simp [this, hm, assemble, hof]
  · rw [if_neg h1]
    by_cases h2 : n < 0x800
    · rw [if_pos h2]
      have hc : continuations (0xC0 + n / 64) = some [(0x80, 0xBF)] := by
        unfold continuations
        rw [if_neg (by omega), if_pos (by omega)]
      have hm : matching [(0x80, 0xBF)] ((0x80 + n % 64) :: rest) = [0x80 + n % 64] := by
        have hr : matching [] rest = [] := by cases rest <;> rfl
        rw [matching, if_pos (by omega), hr]
      rw [List.cons_append, List.singleton_append, lossy]
      have ha : assemble (0xC0 + n / 64) [0x80 + n % 64] = c := by
        rw [← hof]
        simp only [assemble, List.length_singleton, List.foldl_cons, List.foldl_nil]
        refine congrArg Char.ofNat ?_
        omega
      simp only [hc, hm, ha]
      rfl
    · rw [if_neg h2]
      by_cases h3 : n < 0x10000
      · rw [if_pos h3]
        have hc : ∃ lo hi, continuations (0xE0 + n / 4096) = some [(lo, hi), (0x80, 0xBF)] ∧
            lo ≤ 0x80 + n / 64 % 64 ∧ 0x80 + n / 64 % 64 ≤ hi := by
          unfold continuations
          rw [if_neg (by omega), if_neg (by omega)]
          by_cases e1 : 0xE0 + n / 4096 = 0xE0
          · rw [if_pos e1]; exact ⟨_, _, rfl, by omega, by omega⟩
          · rw [if_neg e1]
            by_cases e2 : 0xE0 + n / 4096 = 0xED
            · rw [if_pos e2]; exact ⟨_, _, rfl, by omega, by omega⟩
            · rw [if_neg e2, if_pos (by omega)]; exact ⟨_, _, rfl, by omega, by omega⟩
        obtain ⟨lo, hi, hc, hlo, hhi⟩ := hc
        have hm : matching [(lo, hi), (0x80, 0xBF)] ((0x80 + n / 64 % 64) :: (0x80 + n % 64) :: rest) =
            [0x80 + n / 64 % 64, 0x80 + n % 64] := by
          have hr : matching [] rest = [] := by cases rest <;> rfl
          rw [matching, if_pos ⟨hlo, hhi⟩, matching, if_pos (by omega), hr]
        have ha : assemble (0xE0 + n / 4096) [0x80 + n / 64 % 64, 0x80 + n % 64] = c := by
          rw [← hof]
          simp only [assemble, List.length_cons, List.length_nil, List.foldl_cons, List.foldl_nil]
          refine congrArg Char.ofNat ?_
          omega
        rw [List.cons_append, List.cons_append, List.singleton_append, lossy]
        simp only [hc, hm, ha]
        rfl
      · rw [if_neg h3]
        have hc : ∃ lo hi, continuations (0xF0 + n / 262144) = some [(lo, hi), (0x80, 0xBF), (0x80, 0xBF)] ∧
            lo ≤ 0x80 + n / 4096 % 64 ∧ 0x80 + n / 4096 % 64 ≤ hi := by
          unfold continuations
          rw [if_neg (by omega), if_neg (by omega), if_neg (by omega), if_neg (by omega), if_neg (by omega)]
          by_cases e1 : 0xF0 + n / 262144 = 0xF0
          · rw [if_pos e1]; exact ⟨_, _, rfl, by omega, by omega⟩
          · rw [if_neg e1]
            by_cases e2 : 0xF1 ≤ 0xF0 + n / 262144 ∧ 0xF0 + n / 262144 ≤ 0xF3
            · rw [if_pos e2]; exact ⟨_, _, rfl, by omega, by omega⟩
            · rw [if_neg e2, if_pos (by omega)]; exact ⟨_, _, rfl, by omega, by omega⟩
        obtain ⟨lo, hi, hc, hlo, hhi⟩ := hc
        have hm : matching [(lo, hi), (0x80, 0xBF), (0x80, 0xBF)]
            ((0x80 + n / 4096 % 64) :: (0x80 + n / 64 % 64) :: (0x80 + n % 64) :: rest) =
            [0x80 + n / 4096 % 64, 0x80 + n / 64 % 64, 0x80 + n % 64] := by
          have hr : matching [] rest = [] := by cases rest <;> rfl
          rw [matching, if_pos ⟨hlo, hhi⟩, matching, if_pos (by omega), matching, if_pos (by omega), hr]
        have ha : assemble (0xF0 + n / 262144) [0x80 + n / 4096 % 64, 0x80 + n / 64 % 64, 0x80 + n % 64] = c := by
          rw [← hof]
          simp only [assemble, List.length_cons, List.length_nil, List.foldl_cons, List.foldl_nil]
          refine congrArg Char.ofNat ?_
          omega
        rw [List.cons_append, List.cons_append, List.cons_append, List.singleton_append, lossy]
        simp only [hc, hm, ha]
        rfl

/-- An encoded text is decoded to itself, whatever follows. -/
theorem lossy_text (t : Text) (rest : List Nat) : lossy (utf8s t ++ rest) = t ++ lossy rest := by
  induction t with
  | nil => rfl
  | cons c t ih =>
    rw [utf8s, List.flatMap_cons, List.append_assoc, lossy_char]
    exact congrArg (c :: ·) ih

example : utf8s "aé€😀".toList = [97, 195, 169, 226, 130, 172, 240, 159, 152, 128] := by decide

end Verif.Stdx
