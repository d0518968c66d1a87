import Verif.Stdx.Model

set_option autoImplicit false

/-!
C51: `equal_range_by` and `iter_eq_by`.
-/

namespace Verif.Stdx

theorem partitionPoint_eq {T : Type} (pred : T → Bool) (p q : List T) (hp : ∀ x ∈ p, pred x = true)
    (hq : ∀ x ∈ q, pred x = false) (a b : Nat) (ha : a ≤ p.length) (hb : p.length ≤ b)
    (hl : b ≤ (p ++ q).length) : partitionPoint (p ++ q) pred a b = p.length := by
  induction a, b using partitionPoint.induct (p ++ q) pred with
  | case1 a b hab mid hnone =>
    exfalso
    have := List.getElem?_eq_none_iff.1 hnone
    omega
  | case2 a b hab mid x hx hpx ih =>
    rw [partitionPoint]
    simp only [hab, dif_pos]
    show (match (p ++ q)[mid]? with
      | none => a
      | some x => if pred x then partitionPoint (p ++ q) pred (mid + 1) b
          else partitionPoint (p ++ q) pred a mid) = _
    rw [hx]
    simp only [hpx, if_true]
    apply ih _ hb hl
    apply Nat.lt_of_not_le
    intro hle
    rw [List.getElem?_append_right hle] at hx
    have := hq x (List.mem_of_getElem? hx)
    rw [this] at hpx; cases hpx
  | case3 a b hab mid x hx hpx ih =>
    rw [partitionPoint]
    simp only [hab, dif_pos]
    show (match (p ++ q)[mid]? with
      | none => a
      | some x => if pred x then partitionPoint (p ++ q) pred (mid + 1) b
          else partitionPoint (p ++ q) pred a mid) = _
    rw [hx]
    simp only [hpx]
    apply ih ha _ (by omega)
    apply Nat.le_of_not_lt
    intro hlt
    rw [List.getElem?_append_left hlt] at hx
    exact hpx (hp x (List.mem_of_getElem? hx))
  | case4 a b hab =>
    rw [partitionPoint, dif_neg hab]; omega

/-- On a list in which elements comparing less come first, then those comparing equal, then those
comparing greater, the result is the range of the equal ones. -/
theorem equal_range {T : Type} (key : T → Ordering) (below same above : List T)
    (hb : ∀ x ∈ below, key x = .lt) (hs : ∀ x ∈ same, key x = .eq) (ha : ∀ x ∈ above, key x = .gt) :
    equalRangeBy (below ++ same ++ above) key = (below.length, below.length + same.length) := by
  have h1 : partitionPoint (below ++ same ++ above) (fun it => key it == .lt) 0
      (below ++ same ++ above).length = below.length := by
    rw [List.append_assoc]
    apply partitionPoint_eq
    · intro x hx; simp [hb x hx]
    · intro x hx
      rcases List.mem_append.1 hx with hx | hx
      · simp [hs x hx]
      · simp [ha x hx]
    · omega
    · simp
    · exact Nat.le_refl _
  have h2 : (below ++ same ++ above).drop below.length = same ++ above := by
    rw [List.append_assoc, List.drop_left]
  have h3 : partitionPoint (same ++ above) (fun it => key it == .eq) 0 (same ++ above).length
      = same.length := by
    apply partitionPoint_eq
    · intro x hx; simp [hs x hx]
    · intro x hx; simp [ha x hx]
    · omega
    · simp
    · exact Nat.le_refl _
  simp only [equalRangeBy, h1, h2, h3]

/-- The range holds exactly the indices of the elements comparing equal. -/
theorem equal_range_indices {T : Type} (key : T → Ordering) (below same above : List T)
    (hb : ∀ x ∈ below, key x = .lt) (hs : ∀ x ∈ same, key x = .eq) (ha : ∀ x ∈ above, key x = .gt)
    (i : Nat) (x : T) (hi : (below ++ same ++ above)[i]? = some x) :
    ((equalRangeBy (below ++ same ++ above) key).1 ≤ i ∧
      i < (equalRangeBy (below ++ same ++ above) key).2) ↔ key x = .eq := by
  rw [equal_range key below same above hb hs ha]
  simp only
  by_cases h1 : i < below.length
  · rw [List.append_assoc, List.getElem?_append_left h1] at hi
    simp [hb x (List.mem_of_getElem? hi)]; omega
  · by_cases h2 : i < below.length + same.length
    · rw [List.append_assoc, List.getElem?_append_right (by omega),
        List.getElem?_append_left (by omega)] at hi
      simp [hs x (List.mem_of_getElem? hi)]; omega
    · rw [List.getElem?_append_right (by simp; omega)] at hi
      simp [ha x (List.mem_of_getElem? hi)]; omega

example : equalRangeBy ([1, 3] ++ [5, 5, 5] ++ [8]) (compare · 5) = (2, 5) :=
  equal_range (compare · 5) [1, 3] [5, 5, 5] [8] (by decide) (by decide) (by decide)

/-- Two sequences are equal by a relation exactly if they have the same length and the relation holds
at every position. -/
theorem iter_eq_by_iff {A B : Type} (eq : A → B → Bool) (this : List A) (other : List B) :
    iterEqBy eq this other = true ↔ this.length = other.length ∧
      ∀ (i : Nat) x y, this[i]? = some x → other[i]? = some y → eq x y = true := by
  induction this generalizing other with
  | nil => cases other <;> simp [iterEqBy]
  | cons a this ih =>
    cases other with
    | nil => simp [iterEqBy]
    | cons b other =>
      simp only [iterEqBy, List.length_cons, Nat.add_right_cancel_iff]
      cases hab : eq a b with
      | false =>
        simp only [Bool.not_false, if_true, Bool.false_eq_true, false_iff, not_and]
        intro _ h
        have := h 0 a b rfl rfl
        rw [hab] at this; cases this
      | true =>
        simp only [Bool.not_true, Bool.false_eq_true, if_false, ih]
        apply and_congr_right
        intro _
        constructor
        · intro h i x y hx hy
          cases i with
          | zero => simp at hx hy; rw [← hx, ← hy]; exact hab
          | succ i => exact h i x y (by simpa using hx) (by simpa using hy)
        · intro h i x y hx hy
          exact h (i + 1) x y (by simpa using hx) (by simpa using hy)

example : iterEqBy (fun (a : Nat) (b : Nat) => a == b + 1) [2, 3] [1, 2] = true := by decide

end Verif.Stdx
