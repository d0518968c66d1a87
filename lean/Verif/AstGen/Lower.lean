import Verif.AstGen.Fields

set_option autoImplicit false

/-!
`lower_rule` yields exactly the constituents of a rule, and panics exactly on the unsupported rules.
-/

namespace Verif.AstGen

theorem lowerCommaList_some {acc acc' : List Field} {label : Option Text} {rs : List Rule}
    (h : lowerCommaList acc label (.seq rs) = some acc') :
    ∃ ty, IsList rs ty ∧ acc' = acc ++ [.node (label.getD (Stdx.toLowerSnakeCase ty ++ ['s'])) ty .many] := by
  unfold lowerCommaList at h
  split at h
  next node comma n trailing heq =>
    split at h
    next hc =>
      rw [same_iff] at hc
      cases heq
      obtain ⟨rfl, rfl⟩ := hc
      refine ⟨n, ⟨comma, rfl⟩, ?_⟩
      exact (Option.some.inj h).symm
    · cases h
  · cases h

theorem lowerCommaList_list {acc : List Field} {label : Option Text} {rs : List Rule} {ty : Text}
    (h : IsList rs ty) : lowerCommaList acc label (.seq rs) =
      some (acc ++ [.node (label.getD (Stdx.toLowerSnakeCase ty ++ ['s'])) ty .many]) := by
  obtain ⟨sep, rfl⟩ := h
  simp [lowerCommaList, same_refl, pluralize]

theorem IsList.unique {rs : List Rule} {a b : Text} (ha : IsList rs a) (hb : IsList rs b) : a = b := by
  obtain ⟨_, rfl⟩ := ha
  obtain ⟨_, hb⟩ := hb
  simp at hb
  exact hb.1

/-- What `lower_rule` does on a rule. -/
def Good (acc : List Field) (label : Option Text) (r : Rule) : Option (List Field) → Prop
  | some acc' => Supported label r ∧ ∃ fs, acc' = acc ++ fs ∧ ∀ f, f ∈ fs ↔ Constituent label r f
  | none => ¬ Supported label r

/-- What the loop does on a list of rules. -/
def GoodList (acc : List Field) (label : Option Text) (rs : List Rule) : Option (List Field) → Prop
  | some acc' => (∀ r, r ∈ rs → Supported label r) ∧
      ∃ fs, acc' = acc ++ fs ∧ ∀ f, f ∈ fs ↔ ∃ r, r ∈ rs ∧ Constituent label r f
  | none => ¬ ∀ r, r ∈ rs → Supported label r

theorem isLiteralToken_iff (name : Text) : isLiteralToken name = false ↔
    (name ≠ "integer_number".toList ∧ name ≠ "hex_string".toList ∧ name ≠ "byte_string".toList) := by
  unfold isLiteralToken
  rw [Bool.or_eq_false_iff, Bool.or_eq_false_iff, decide_eq_false_iff_not, decide_eq_false_iff_not,
    decide_eq_false_iff_not, and_assoc]

theorem isBracket_iff (name : Text) : isBracket name = true ↔ Bracket name := by
  unfold isBracket Bracket
  rw [List.any_eq_true]
  constructor
  · rintro ⟨i, _, h⟩
    obtain ⟨b, hb⟩ := List.isPrefixOf_iff_prefix.1 h
    exact ⟨"[]{}()".toList.take i, b, by rw [hb, List.take_append_drop]⟩
  · rintro ⟨a, b, e⟩
    have hl := congrArg List.length e
    refine ⟨a.length, ?_, ?_⟩
    · rw [List.mem_range]
      rw [List.length_append] at hl
      have : "[]{}()".toList.length = 6 := by decide
      omega
    · rw [e, List.drop_left, List.isPrefixOf_iff_prefix]
      exact ⟨b, rfl⟩

theorem isLiteralToken_bracket {name : Text} (h : Bracket name) : isLiteralToken name = false := by
  obtain ⟨a, b, e⟩ := h
  have hl := congrArg List.length e
  rw [List.length_append, List.length_append] at hl
  have h6 : "[]{}()".toList.length = 6 := by decide
  rw [isLiteralToken_iff]
  refine ⟨?_, ?_, ?_⟩ <;> (rintro rfl; revert hl; rw [h6]; simp; try omega)

mutual
theorem lowerRule_good : (r : Rule) → (acc : List Field) → (label : Option Text) →
    Good acc label r (lowerRule acc label r)
  | .node ty, acc, label => by
    simp only [lowerRule, Good]
    refine ⟨.node _ _, _, rfl, ?_⟩
    intro f
    rw [List.mem_singleton]
    constructor
    · rintro rfl; exact .node _ _
    · intro h; cases h; rfl
  | .token name, acc, label => by
    simp only [lowerRule]
    split
    next hl =>
      intro h
      cases h
      exact hl rfl
    next hl =>
      have hl : label = none := Classical.not_not.mp hl
      subst hl
      split
      next ht =>
        refine ⟨.token _, [], by simp, ?_⟩
        intro f
        constructor
        · intro h; cases h
        · intro h
          cases h with
          | token _ h =>
            rw [(isLiteralToken_iff name).mpr h] at ht
            cases ht
          | bracket _ hb =>
            rw [isLiteralToken_bracket hb] at ht
            cases ht
      next ht =>
        refine ⟨.token _, _, rfl, ?_⟩
        intro f
        rw [List.mem_singleton]
        constructor
        · rintro rfl
          by_cases hb : Bracket name
          · rw [if_pos ((isBracket_iff name).mpr hb)]
            exact .bracket _ hb
          · rw [if_neg (fun h => hb ((isBracket_iff name).mp h))]
            exact .token _ ((isLiteralToken_iff name).mp (by simpa using ht)) hb
        · intro h
          cases h with
          | token _ _ hb => rw [if_neg (fun h => hb ((isBracket_iff name).mp h))]
          | bracket _ hb => rw [if_pos ((isBracket_iff name).mpr hb)]
  | .rep inner, acc, label => by
    simp only [lowerRule]
    split
    · refine ⟨.rep _ _, _, rfl, ?_⟩
      intro f
      rw [List.mem_singleton]
      constructor
      · rintro rfl; exact .rep _ _
      · intro h; cases h; rfl
    next hn =>
      intro h
      cases h
      exact hn _ rfl
  | .labeled l r, acc, label => by
    simp only [lowerRule]
    split
    next hl =>
      intro h
      cases h
      exact hl rfl
    next hl =>
      have hl : label = none := Classical.not_not.mp hl
      subst hl
      have ih := lowerRule_good r acc (some l)
      revert ih
      cases lowerRule acc (some l) r with
      | none => intro ih h; cases h with | labeled _ _ h => exact ih h
      | some acc' =>
        rintro ⟨hs, fs, e, hf⟩
        refine ⟨.labeled _ _ hs, fs, e, ?_⟩
        intro f
        rw [hf f]
        constructor
        · exact .labeled _ _ _
        · intro h; cases h with | labeled _ _ _ h => exact h
  | .seq rs, acc, label => by
    simp only [lowerRule]
    split
    next acc' hc =>
      obtain ⟨ty, hty, e⟩ := lowerCommaList_some hc
      refine ⟨.list _ _ ty hty, _, e, ?_⟩
      intro f
      rw [List.mem_singleton]
      constructor
      · rintro rfl; exact .list _ _ _ hty
      · intro h
        cases h with
        | list _ _ ty' h' => rw [hty.unique h']
        | seq _ _ _ _ hn => exact absurd ⟨ty, hty⟩ hn
    next hc =>
      have hn : ¬ ∃ ty, IsList rs ty := by
        rintro ⟨ty, h⟩
        rw [lowerCommaList_list h] at hc
        cases hc
      have ih := lowerRules_good rs acc label
      revert ih
      cases lowerRules acc label rs with
      | none =>
        intro ih h
        cases h with
        | list _ _ ty h => exact hn ⟨ty, h⟩
        | seq _ _ h => exact ih h
      | some acc' =>
        rintro ⟨hs, fs, e, hf⟩
        refine ⟨.seq _ _ hs, fs, e, ?_⟩
        intro f
        rw [hf f]
        constructor
        · rintro ⟨r, hr, h⟩; exact .seq _ _ r f hn hr h
        · intro h
          cases h with
          | list _ _ ty h => exact absurd ⟨ty, h⟩ hn
          | seq _ _ r _ _ hr h => exact ⟨r, hr, h⟩
  | .alt rs, acc, label => by
    simp only [lowerRule]
    have ih := lowerRules_good rs acc label
    revert ih
    cases lowerRules acc label rs with
    | none => intro ih h; cases h with | alt _ _ h => exact ih h
    | some acc' =>
      rintro ⟨hs, fs, e, hf⟩
      refine ⟨.alt _ _ hs, fs, e, ?_⟩
      intro f
      rw [hf f]
      constructor
      · rintro ⟨r, hr, h⟩; exact .alt _ _ r f hr h
      · intro h; cases h with | alt _ _ r _ hr h => exact ⟨r, hr, h⟩
  | .opt r, acc, label => by
    simp only [lowerRule]
    have ih := lowerRule_good r acc label
    revert ih
    cases lowerRule acc label r with
    | none => intro ih h; cases h with | opt _ _ h => exact ih h
    | some acc' =>
      rintro ⟨hs, fs, e, hf⟩
      refine ⟨.opt _ _ hs, fs, e, ?_⟩
      intro f
      rw [hf f]
      constructor
      · exact .opt _ _ _
      · intro h; cases h with | opt _ _ _ h => exact h
theorem lowerRules_good : (rs : List Rule) → (acc : List Field) → (label : Option Text) →
    GoodList acc label rs (lowerRules acc label rs)
  | [], acc, label => by
    simp only [lowerRules]
    exact ⟨by simp, [], by simp, by simp⟩
  | r :: rs, acc, label => by
    simp only [lowerRules]
    have ih := lowerRule_good r acc label
    revert ih
    cases lowerRule acc label r with
    | none => intro ih h; exact ih (h r (by simp))
    | some acc' =>
      rintro ⟨hs, fs, e, hf⟩
      have ih2 := lowerRules_good rs acc' label
      simp only []
      revert ih2
      cases lowerRules acc' label rs with
      | none => intro ih2 h; exact ih2 fun x hx => h x (by simp [hx])
      | some acc'' =>
        rintro ⟨hs2, fs2, e2, hf2⟩
        refine ⟨?_, fs ++ fs2, by rw [e2, e, List.append_assoc], ?_⟩
        · intro x hx
          rcases List.mem_cons.mp hx with rfl | hx
          · exact hs
          · exact hs2 x hx
        · intro f
          rw [List.mem_append, hf f, hf2 f]
          constructor
          · rintro (h | ⟨x, hx, h⟩)
            · exact ⟨r, by simp, h⟩
            · exact ⟨x, by simp [hx], h⟩
          · rintro ⟨x, hx, h⟩
            rcases List.mem_cons.mp hx with rfl | hx
            · exact Or.inl h
            · exact Or.inr ⟨x, hx, h⟩
end

/-! ### Enums -/

theorem lowerEnumLoop_spec (rs : List Rule) (acc : List Text) :
    match lowerEnumLoop rs acc with
    | some vs => (∀ a, a ∈ rs → (∃ n, a = .node n) ∨ a = .token [';']) ∧
        ∃ ws, vs = acc ++ ws ∧ ∀ v, v ∈ ws ↔ Rule.node v ∈ rs
    | none => ¬ ∀ a, a ∈ rs → (∃ n, a = .node n) ∨ a = .token [';'] := by
  induction rs generalizing acc with
  | nil => exact ⟨by simp, [], by simp, by simp⟩
  | cons r rs ih =>
    have hother (h1 : ∀ n, r ≠ .node n) (h2 : ∀ t, r ≠ .token t) :
        ¬ ∀ a, a ∈ r :: rs → (∃ n, a = .node n) ∨ a = .token [';'] := by
      intro h
      rcases h r (by simp) with ⟨n, rfl⟩ | rfl
      · exact h1 _ rfl
      · exact h2 _ rfl
    cases r with
    | node n =>
      simp only [lowerEnumLoop]
      have ih := ih (acc ++ [n])
      revert ih
      cases lowerEnumLoop rs (acc ++ [n]) with
      | none => intro ih h; exact ih fun a ha => h a (by simp [ha])
      | some vs =>
        rintro ⟨ha, ws, e, hw⟩
        refine ⟨?_, n :: ws, by rw [e]; simp, ?_⟩
        · intro a h
          rcases List.mem_cons.mp h with rfl | h
          · exact Or.inl ⟨_, rfl⟩
          · exact ha a h
        · intro v
          simp [hw v]
    | token t =>
      simp only [lowerEnumLoop]
      by_cases ht : t = [';']
      · rw [if_pos ht]
        have ih := ih acc
        revert ih
        cases lowerEnumLoop rs acc with
        | none => intro ih h; exact ih fun a ha => h a (by simp [ha])
        | some vs =>
          rintro ⟨ha, ws, e, hw⟩
          refine ⟨?_, ws, e, ?_⟩
          · intro a h
            rcases List.mem_cons.mp h with rfl | h
            · exact Or.inr (by rw [ht])
            · exact ha a h
          · intro v
            simp [hw v]
      · rw [if_neg ht]
        intro h
        rcases h (.token t) (by simp) with ⟨n, h⟩ | h
        · cases h
        · cases h; exact ht rfl
    | labeled _ _ => exact hother (by simp) (by simp)
    | seq _ => exact hother (by simp) (by simp)
    | alt _ => exact hother (by simp) (by simp)
    | opt _ => exact hother (by simp) (by simp)
    | rep _ => exact hother (by simp) (by simp)

/-- `lower_enum` recognises exactly the choices and returns their alternatives. -/
theorem lowerEnum_some {r : Rule} {vs : List Text} (h : lowerEnum r = some vs) :
    IsChoice r ∧ ∀ v, v ∈ vs ↔ Alternative r v := by
  unfold lowerEnum at h
  split at h
  next rs =>
    have := lowerEnumLoop_spec rs []
    rw [h] at this
    obtain ⟨ha, ws, e, hw⟩ := this
    simp only [List.nil_append] at e
    subst e
    refine ⟨⟨rs, rfl, ha⟩, ?_⟩
    intro v
    rw [hw v]
    constructor
    · intro h; exact ⟨rs, rfl, h⟩
    · rintro ⟨rs', e, h⟩
      cases e
      exact h
  · cases h

theorem lowerEnum_none {r : Rule} (h : lowerEnum r = none) : ¬ IsChoice r := by
  rintro ⟨rs, rfl, ha⟩
  have := lowerEnumLoop_spec rs []
  simp only [lowerEnum] at h
  rw [h] at this
  exact this ha

end Verif.AstGen
