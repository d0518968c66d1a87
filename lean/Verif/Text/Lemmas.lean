import Verif.Text.Spec

namespace Verif

@[simp] theorem byteLen_nil : byteLen [] = 0 := rfl
@[simp] theorem byteLen_cons (c : Char) (cs : Text) : byteLen (c :: cs) = c.utf8Size + byteLen cs := rfl
@[simp] theorem byteLen_append (p q : Text) : byteLen (p ++ q) = byteLen p + byteLen q := by
  induction p with
  | nil => simp
  | cons c cs ih => simp [ih]; omega
@[simp] theorem utf16Len_nil : utf16Len [] = 0 := rfl
@[simp] theorem utf16Len_cons (c : Char) (cs : Text) : utf16Len (c :: cs) = unit16 c + utf16Len cs := rfl
@[simp] theorem utf16Len_append (p q : Text) : utf16Len (p ++ q) = utf16Len p + utf16Len q := by
  induction p with
  | nil => simp
  | cons c cs ih => simp [ih]; omega

theorem utf8Size_pos (c : Char) : 0 < c.utf8Size := Char.utf8Size_pos c

theorem unit16_pos (c : Char) : 0 < unit16 c := by unfold unit16; split <;> omega

@[simp] theorem lastLine_nil : lastLine [] = [] := rfl
theorem lastLine_concat (p : Text) (c : Char) :
    lastLine (p ++ [c]) = if c = '\n' then [] else lastLine p ++ [c] := by
  unfold lastLine
  simp [List.takeWhile_cons]
  split <;> simp_all

@[simp] theorem newlineCount_nil : newlineCount [] = 0 := rfl
theorem newlineCount_concat (p : Text) (c : Char) :
    newlineCount (p ++ [c]) = newlineCount p + if c = '\n' then 1 else 0 := by
  unfold newlineCount
  simp [List.count_append, List.count_cons]

theorem byteLen_lastLine_le (p : Text) : byteLen (lastLine p) ≤ byteLen p := by
  unfold lastLine
  have h : p = (p.reverse.dropWhile (· != '\n')).reverse ++ (p.reverse.takeWhile (· != '\n')).reverse := by
    rw [← List.reverse_append, List.takeWhile_append_dropWhile, List.reverse_reverse]
  conv => rhs; rw [h]
  rw [byteLen_append]; omega

/-- The UTF-8 size of a character is 4 exactly when it needs two UTF-16 units. -/
theorem utf8Size_eq_four_iff (c : Char) : c.utf8Size = 4 ↔ unit16 c = 2 := by
  unfold unit16 Char.utf8Size
  have h1 : c.val.toNat < UInt32.size := c.val.toNat_lt
  simp only [UInt32.le_iff_toNat_le, UInt32.toNat_ofNatLT]
  split
  · split <;> omega
  · split
    · split <;> omega
    · split
      · split <;> omega
      · split <;> omega

theorem unit16_le_utf8Size (c : Char) : unit16 c ≤ c.utf8Size := by
  have h := utf8Size_pos c
  by_cases h4 : unit16 c = 2
  · have := (utf8Size_eq_four_iff c).2 h4; omega
  · have : unit16 c = 1 := by unfold unit16 at *; split at h4 <;> simp_all
    omega

/-- ASCII characters take one byte and one UTF-16 unit. -/
theorem utf8Size_eq_one_iff (c : Char) : c.utf8Size = 1 ↔ c.val.toNat < 128 := by
  unfold Char.utf8Size
  simp only [UInt32.le_iff_toNat_le, UInt32.toNat_ofNatLT]
  split
  · constructor <;> omega
  · split
    · constructor <;> omega
    · split <;> constructor <;> omega

theorem unit16_eq_one_of_ascii (c : Char) (h : c.val.toNat < 128) : unit16 c = 1 := by
  unfold unit16; split <;> omega

/-- Prefixes of the same text with the same byte length are equal. -/
theorem prefix_unique {p q p' q' : Text} (h : p ++ q = p' ++ q') (hl : byteLen p = byteLen p') :
    p = p' ∧ q = q' := by
  induction p generalizing p' with
  | nil =>
    cases p' with
    | nil => exact ⟨rfl, h⟩
    | cons c cs => have := utf8Size_pos c; simp at hl; omega
  | cons c cs ih =>
    cases p' with
    | nil => have := utf8Size_pos c; simp at hl; omega
    | cons c' cs' =>
      simp at h
      obtain ⟨rfl, h⟩ := h
      simp at hl
      obtain ⟨rfl, rfl⟩ := ih h hl
      exact ⟨rfl, rfl⟩

end Verif
