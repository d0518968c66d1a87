import Verif.Paths.Props

/-! Property C55: the name and the extension of a virtual path. -/

namespace Verif.Paths

theorem beforeLastDot_none (name : Text) : beforeLastDot name = none ↔ '.' ∉ name := by
  induction name with
  | nil => simp [beforeLastDot]
  | cons c cs ih =>
    simp only [beforeLastDot]
    cases h : beforeLastDot cs with
    | some p =>
      have : '.' ∈ cs := by
        apply Classical.byContradiction
        intro hn
        rw [ih.2 hn] at h
        cases h
      simp [this]
    | none =>
      have := ih.1 h
      by_cases hc : c = '.'
      · simp [hc]
      · simp [hc, this, Ne.symm hc]

theorem beforeLastDot_some (name stem : Text) : beforeLastDot name = some stem ↔
    ∃ ext, '.' ∉ ext ∧ name = stem ++ '.' :: ext := by
  induction name generalizing stem with
  | nil => simp [beforeLastDot]
  | cons c cs ih =>
    simp only [beforeLastDot]
    cases h : beforeLastDot cs with
    | some p =>
      obtain ⟨ext, he, hcs⟩ := (ih p).1 h
      simp only [Option.some.injEq]
      constructor
      · rintro rfl
        exact ⟨ext, he, by rw [hcs]; rfl⟩
      · rintro ⟨ext', he', hx⟩
        cases stem with
        | nil =>
          simp only [List.nil_append, List.cons.injEq] at hx
          rw [← hx.2, hcs] at he'
          simp at he'
        | cons a st =>
          simp only [List.cons_append, List.cons.injEq] at hx
          have := (ih st).2 ⟨ext', he', hx.2⟩
          rw [h] at this
          cases this
          rw [hx.1]
    | none =>
      have hcs := (beforeLastDot_none cs).1 h
      by_cases hc : c = '.'
      · subst hc
        simp only [if_true, Option.some.injEq]
        constructor
        · rintro rfl
          exact ⟨cs, hcs, rfl⟩
        · rintro ⟨ext', he', hx⟩
          cases stem with
          | nil => rfl
          | cons a st =>
            simp only [List.cons_append, List.cons.injEq] at hx
            rw [hx.2] at hcs
            simp at hcs
      · simp only [hc, if_false, reduceCtorEq, false_iff, not_exists, not_and]
        intro ext' he' hx
        cases stem with
        | nil =>
          simp only [List.nil_append, List.cons.injEq] at hx
          exact hc hx.1
        | cons a st =>
          simp only [List.cons_append, List.cons.injEq] at hx
          rw [hx.2] at hcs
          simp at hcs


/-! ## Specification -/

/-- `p` ends in the name `name`, perhaps followed by one separator. -/
def EndsIn (p name : Text) : Prop :=
  name ≠ [] ∧ '/' ∉ name ∧
    ∃ pre, (pre = [] ∨ pre.getLast? = some '/') ∧ (p = pre ++ name ∨ p = pre ++ name ++ ['/'])

/-- `name` is a non-empty stem, a dot and an extension without dots. -/
def Splits (name stem ext : Text) : Prop := stem ≠ [] ∧ '.' ∉ ext ∧ name = stem ++ '.' :: ext

/-! ## C55 -/

/-- The last part of a text without a final separator. -/
def lastPart (p : Text) : Text :=
  match beforeLastSlash p with
  | some pre => p.drop (pre.length + 1)
  | none => p

theorem lastPart_spec (pre name : Text) (hn : '/' ∉ name) (hp : pre = [] ∨ pre.getLast? = some '/') :
    lastPart (pre ++ name) = name := by
  unfold lastPart
  rcases hp with rfl | hp
  · rw [List.nil_append, beforeLastSlash_none.2 hn]
  · obtain ⟨a, rfl⟩ : ∃ a, pre = a ++ ['/'] := by
      rw [List.getLast?_eq_some_iff] at hp
      exact hp
    rw [List.append_assoc, List.singleton_append, beforeLastSlash_append _ _ hn]
    simp

theorem lastPart_split (p : Text) : '/' ∉ lastPart p ∧
    ∃ pre, (pre = [] ∨ pre.getLast? = some '/') ∧ p = pre ++ lastPart p := by
  by_cases h : '/' ∈ p
  · obtain ⟨a, n, hn, rfl⟩ : ∃ a n, '/' ∉ n ∧ p = a ++ '/' :: n := by
      induction p with
      | nil => simp at h
      | cons c cs ih =>
        by_cases hc : '/' ∈ cs
        · obtain ⟨a, n, hn, rfl⟩ := ih hc
          exact ⟨c :: a, n, hn, rfl⟩
        · have : c = '/' := by
            rcases List.mem_cons.1 h with h | h
            · exact h.symm
            · exact absurd h hc
          subst this
          exact ⟨[], cs, hc, rfl⟩
    have e : lastPart (a ++ '/' :: n) = n := by
      have := lastPart_spec (a ++ ['/']) n hn (.inr (by simp))
      simpa using this
    rw [e]
    exact ⟨hn, a ++ ['/'], .inr (by simp), by simp⟩
  · have e : lastPart p = p := by
      unfold lastPart
      rw [beforeLastSlash_none.2 h]
    rw [e]
    exact ⟨h, [], .inl rfl, rfl⟩

theorem fileName_spec (p name : Text) (h : EndsIn p name) : fileName p = name := by
  obtain ⟨h0, hn, pre, hp, hq⟩ := h
  have hlast : (pre ++ name).getLast? ≠ some '/' := by
    intro hl
    rw [List.getLast?_append] at hl
    cases hg : name.getLast? with
    | none => exact h0 (List.getLast?_eq_none_iff.1 hg)
    | some c =>
      rw [hg] at hl
      cases hl
      exact hn (List.mem_of_getLast? hg)
  have hfile : ∀ q, q = pre ++ name → lastPart q = name := fun q hq => by
    rw [hq]; exact lastPart_spec pre name hn hp
  unfold fileName
  rcases hq with rfl | rfl
  · simp only [hlast, if_false]
    exact hfile _ rfl
  · simp only [List.getLast?_concat, if_true, List.dropLast_concat]
    exact hfile _ rfl

theorem fileName_ends (p : Text) (h : fileName p ≠ []) : EndsIn p (fileName p) := by
  have e : fileName p = lastPart (if p.getLast? = some '/' then p.dropLast else p) := rfl
  rw [e] at h ⊢
  by_cases hl : p.getLast? = some '/'
  · rw [if_pos hl] at h ⊢
    obtain ⟨h1, pre, h2, h3⟩ := lastPart_split p.dropLast
    refine ⟨h, h1, pre, h2, .inr ?_⟩
    rw [← h3]
    rw [List.getLast?_eq_some_iff] at hl
    obtain ⟨ys, rfl⟩ := hl
    simp
  · rw [if_neg hl] at h ⊢
    obtain ⟨h1, pre, h2, h3⟩ := lastPart_split p
    exact ⟨h, h1, pre, h2, .inl h3⟩

/-- C55: a name with an extension is split at its last dot. -/
theorem name_with_extension (p name stem ext : Text) (h : EndsIn p name) (hs : Splits name stem ext) :
    nameAndExtension p = some (stem, some ext) := by
  obtain ⟨hs1, he, rfl⟩ := hs
  unfold nameAndExtension
  simp only [fileName_spec p _ h, if_neg h.1, (beforeLastDot_some _ stem).2 ⟨ext, he, rfl⟩]
  cases stem with
  | nil => exact absurd rfl hs1
  | cons c cs => simp

/-- C55: a name without a dot, or with no dot but the first character, has no extension. -/
theorem name_without_extension (p name : Text) (h : EndsIn p name) (hs : ∀ stem ext, ¬ Splits name stem ext) :
    nameAndExtension p = some (name, none) := by
  unfold nameAndExtension
  simp only [fileName_spec p _ h, if_neg h.1]
  cases hb : beforeLastDot name with
  | none => rfl
  | some stem =>
    cases stem with
    | nil => rfl
    | cons c cs =>
      obtain ⟨ext, he, hn⟩ := (beforeLastDot_some _ _).1 hb
      exact absurd ⟨by simp, he, hn⟩ (hs (c :: cs) ext)

/-- C55: only a path that ends in no name has none. -/
theorem no_name_iff (p : Text) : nameAndExtension p = none ↔ ∀ name, ¬ EndsIn p name := by
  constructor
  · intro h name hn
    by_cases hs : ∃ stem ext, Splits name stem ext
    · obtain ⟨stem, ext, hs⟩ := hs
      rw [name_with_extension p name stem ext hn hs] at h
      cases h
    · rw [name_without_extension p name hn (fun stem ext hx => hs ⟨stem, ext, hx⟩)] at h
      cases h
  · intro h
    have : fileName p = [] := by
      apply Classical.byContradiction
      intro hne
      exact h _ (fileName_ends p hne)
    unfold nameAndExtension
    simp only [this, if_true]

example : EndsIn "/a/b.c.move/".toList "b.c.move".toList ∧
    Splits "b.c.move".toList "b.c".toList "move".toList :=
  ⟨⟨by decide, by decide, "/a/".toList, .inr (by decide), .inr (by decide)⟩, by decide, by decide, by decide⟩

example : nameAndExtension "/a/.move".toList = some (".move".toList, none) ∧
    nameAndExtension "/".toList = none ∧ nameAndExtension "/a//".toList = none := by decide

end Verif.Paths
