import Verif.AstGen.Spec

set_option autoImplicit false

/-!
Lists of fields: deduplication and removal.
-/

namespace Verif.AstGen

/-! ### Equality of rules -/

mutual
theorem same_refl : (r : Rule) → Rule.same r r = true
  | .labeled l r => by simp [Rule.same, same_refl r]
  | .node n => by simp [Rule.same]
  | .token n => by simp [Rule.same]
  | .seq rs => by simp [Rule.same, sameList_refl rs]
  | .alt rs => by simp [Rule.same, sameList_refl rs]
  | .opt r => by simp [Rule.same, same_refl r]
  | .rep r => by simp [Rule.same, same_refl r]
theorem sameList_refl : (rs : List Rule) → Rule.sameList rs rs = true
  | [] => by simp [Rule.sameList]
  | r :: rs => by simp [Rule.sameList, same_refl r, sameList_refl rs]
end

mutual
theorem eq_of_same : (r s : Rule) → Rule.same r s = true → r = s
  | .labeled l r, s, h => by
    cases s <;> simp [Rule.same] at h
    rw [h.1, eq_of_same r _ h.2]
  | .node n, s, h => by cases s <;> simp [Rule.same] at h; rw [h]
  | .token n, s, h => by cases s <;> simp [Rule.same] at h; rw [h]
  | .seq rs, s, h => by
    cases s <;> simp [Rule.same] at h
    rw [eq_of_sameList rs _ h]
  | .alt rs, s, h => by
    cases s <;> simp [Rule.same] at h
    rw [eq_of_sameList rs _ h]
  | .opt r, s, h => by
    cases s <;> simp [Rule.same] at h
    rw [eq_of_same r _ h]
  | .rep r, s, h => by
    cases s <;> simp [Rule.same] at h
    rw [eq_of_same r _ h]
theorem eq_of_sameList : (rs ss : List Rule) → Rule.sameList rs ss = true → rs = ss
  | [], ss, h => by cases ss <;> simp [Rule.sameList] at h; rfl
  | r :: rs, ss, h => by
    cases ss with
    | nil => simp [Rule.sameList] at h
    | cons s ss =>
      simp [Rule.sameList] at h
      rw [eq_of_same r s h.1, eq_of_sameList rs ss h.2]
end

theorem same_iff (r s : Rule) : Rule.same r s = true ↔ r = s :=
  ⟨eq_of_same r s, fun h => h ▸ same_refl r⟩

/-! ### Deduplication -/

theorem filterMap_congr {α β : Type} (f g : α → Option β) (xs : List α) (h : ∀ x, x ∈ xs → f x = g x) :
    xs.filterMap f = xs.filterMap g := by
  induction xs with
  | nil => rfl
  | cons x xs ih =>
    rw [List.filterMap_cons, List.filterMap_cons, h x (by simp), ih fun y hy => h y (by simp [hy])]

theorem dedupLoop_spec (pre xs seen : List Field) (h : seen = firstOccurrences pre)
    (hm : ∀ f, f ∈ seen ↔ f ∈ pre) : dedupLoop seen xs = firstOccurrences (pre ++ xs) := by
  induction xs generalizing pre seen with
  | nil => simp [dedupLoop, h]
  | cons f rest ih =>
    have hstep : firstOccurrences (pre ++ [f]) =
        firstOccurrences pre ++ (if f ∈ pre then [] else [f]) := by
      unfold firstOccurrences
      rw [List.length_append, List.length_singleton, List.range_succ, List.filterMap_append]
      apply congr
      · apply congrArg
        apply filterMap_congr
        intro i hi
        have hi := List.mem_range.mp hi
        rw [List.getElem?_append_left hi, List.take_append_of_le_length (by omega)]
      · by_cases hf : f ∈ pre <;> simp [hf]
    have e : pre ++ f :: rest = (pre ++ [f]) ++ rest := by simp
    rw [e]
    unfold dedupLoop
    by_cases hf : f ∈ pre
    · have hany : (seen.any fun f2 => decide (f = f2)) = true := by
        rw [List.any_eq_true]
        exact ⟨f, (hm f).mpr hf, by simp⟩
      rw [if_pos hany]
      apply ih (pre ++ [f]) seen
      · rw [hstep, if_pos hf, h]; simp
      · intro x
        rw [hm x]
        constructor
        · intro hx; exact List.mem_append_left _ hx
        · intro hx
          rcases List.mem_append.mp hx with hx | hx
          · exact hx
          · rw [List.mem_singleton.mp hx]; exact hf
    · have hany : ¬ (seen.any fun f2 => decide (f = f2)) = true := by
        rw [List.any_eq_true]
        rintro ⟨x, hx, he⟩
        have := of_decide_eq_true he
        subst this
        exact hf ((hm _).mp hx)
      rw [if_neg hany]
      apply ih (pre ++ [f]) (seen ++ [f])
      · rw [hstep, if_neg hf, h]
      · intro x
        simp [hm x]

theorem dedup_eq (xs : List Field) : dedupLoop [] xs = firstOccurrences xs :=
  dedupLoop_spec [] xs [] (by simp [firstOccurrences]) (by simp)

theorem dedupLoop_mem (seen xs : List Field) (f : Field) :
    f ∈ dedupLoop seen xs ↔ f ∈ seen ∨ f ∈ xs := by
  induction xs generalizing seen with
  | nil => simp [dedupLoop]
  | cons x rest ih =>
    unfold dedupLoop
    split
    next h =>
      rw [List.any_eq_true] at h
      obtain ⟨y, hy, he⟩ := h
      have := of_decide_eq_true he
      subst this
      rw [ih, List.mem_cons]
      constructor
      · rintro (h | h)
        · exact Or.inl h
        · exact Or.inr (Or.inr h)
      · rintro (h | h | h)
        · exact Or.inl h
        · exact Or.inl (h ▸ hy)
        · exact Or.inr h
    next h =>
      rw [ih]
      simp [or_assoc]

theorem dedupLoop_nodup (seen xs : List Field) (h : seen.Nodup) : (dedupLoop seen xs).Nodup := by
  induction xs generalizing seen with
  | nil => exact h
  | cons x rest ih =>
    unfold dedupLoop
    split
    · exact ih _ h
    next hx =>
      apply ih
      rw [List.nodup_append]
      refine ⟨h, by simp, ?_⟩
      intro a ha b hb hab
      rw [List.mem_singleton] at hb
      subst hab hb
      apply hx
      rw [List.any_eq_true]
      exact ⟨_, ha, by simp⟩

theorem dedupLoop_sublist (seen xs : List Field) : List.Sublist (dedupLoop seen xs) (seen ++ xs) := by
  induction xs generalizing seen with
  | nil => simp [dedupLoop]
  | cons x rest ih =>
    unfold dedupLoop
    split
    · exact (ih seen).trans (List.Sublist.append (List.Sublist.refl _) (List.sublist_cons_self _ _))
    · have := ih (seen ++ [x])
      simpa using this

/-! ### Removal -/

theorem removeAll_append (is js : List Nat) (xs : List Field) :
    removeAll (is ++ js) xs = (removeAll is xs).bind (removeAll js) := by
  induction is generalizing xs with
  | nil => rfl
  | cons i is ih =>
    simp only [List.cons_append, removeAll]
    cases removeAt xs i with
    | none => rfl
    | some ys => exact ih ys

theorem indicesFrom_succ (p : Field → Bool) (i : Nat) (xs : List Field) :
    indicesFrom p (i + 1) xs = (indicesFrom p i xs).map (· + 1) := by
  induction xs generalizing i with
  | nil => rfl
  | cons x xs ih =>
    simp only [indicesFrom]
    split
    · rw [ih (i + 1)]; rfl
    · exact ih (i + 1)

theorem removeAll_map_succ (is : List Nat) (x : Field) (xs : List Field) :
    removeAll (is.map (· + 1)) (x :: xs) = (removeAll is xs).map (x :: ·) := by
  induction is generalizing xs with
  | nil => rfl
  | cons i is ih =>
    simp only [List.map_cons, removeAll, removeAt, List.length_cons]
    by_cases h : i < xs.length
    · rw [if_pos h, if_pos (by omega)]
      exact ih _
    · rw [if_neg h, if_neg (by omega)]
      rfl

/-- Removing the recorded indices, from the last to the first, removes exactly the fields that satisfy
the condition; no index is out of range. -/
theorem removeField_indices (p : Field → Bool) (xs : List Field) :
    removeField (indicesFrom p 0 xs) xs = some (xs.filter fun f => !p f) := by
  induction xs with
  | nil => rfl
  | cons x xs ih =>
    unfold removeField at ih ⊢
    have hs := removeAll_map_succ (indicesFrom p 0 xs).reverse x xs
    rw [ih] at hs
    rw [indicesFrom]
    simp only [indicesFrom_succ p 0 xs]
    by_cases hp : p x = true
    · rw [if_pos hp, List.reverse_cons, removeAll_append, ← List.map_reverse, hs]
      simp [removeAll, removeAt, hp]
    · rw [if_neg hp, ← List.map_reverse, hs]
      simp [hp]

theorem indicesFrom_length (p : Field → Bool) (i : Nat) (xs : List Field) :
    (indicesFrom p i xs).length = (xs.filter p).length := by
  induction xs generalizing i with
  | nil => rfl
  | cons x xs ih =>
    simp only [indicesFrom]
    by_cases hp : p x = true
    · simp [hp, ih]
    · simp [hp, ih]

end Verif.AstGen
