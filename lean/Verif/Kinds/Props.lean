import Verif.Kinds.Model

set_option autoImplicit false

/-!
C36 (token sets behave like sets) and C37 (numbering of the syntax kinds).
-/

namespace Verif

namespace Kind

theorem mem_all (k : Kind) : k ∈ all := by cases k <;> decide +kernel

theorem all_getElem (k : Kind) : all[k.toNat]? = some k := by cases k <;> rfl

theorem all_length : all.length = 117 := by decide +kernel

theorem toNat_lt (k : Kind) : k.toNat < 117 := by
  have h := all_getElem k
  rw [List.getElem?_eq_some_iff] at h
  obtain ⟨h, _⟩ := h
  rwa [all_length] at h

/-- **C39.**  Exactly whitespace and comments are trivia. -/
theorem isTrivia_iff (k : Kind) : k.isTrivia = true ↔ k = .WHITESPACE ∨ k = .COMMENT := by
  cases k <;> simp [isTrivia]

/-- Two kinds with the same number are the same kind. -/
theorem toNat_inj {a b : Kind} (h : a.toNat = b.toNat) : a = b := by
  have ha := all_getElem a
  rw [h, all_getElem b] at ha
  exact (Option.some.inj ha).symm

/-- **C37, first half.**  Converting a kind to its number and back gives the kind. -/
theorem ofNat_toNat (k : Kind) : ofNat? k.toNat = some k := by
  unfold ofNat?
  rw [if_pos, all_getElem]
  have h := toNat_lt k
  have : toNat .__LAST = 116 := rfl
  omega

/-- **C37, second half.**  The conversion from numbers accepts exactly the numbers of the
kinds, returns the kind with that number, and rejects everything else. -/
theorem ofNat_eq_some_iff (d : Nat) (k : Kind) : ofNat? d = some k ↔ k.toNat = d := by
  constructor
  · intro h
    unfold ofNat? at h
    split at h
    · rw [List.getElem?_eq_some_iff] at h
      obtain ⟨hd, h⟩ := h
      have hk := all_getElem k
      rw [List.getElem?_eq_some_iff] at hk
      obtain ⟨hk', hk⟩ := hk
      have hn : all.Nodup := by decide +kernel
      exact (List.getElem_inj hn).1 (hk.trans h.symm)
    · cases h
  · rintro rfl
    exact ofNat_toNat k

/-- **C37, rejection.**  A number is rejected exactly when no kind has it. -/
theorem ofNat_eq_none_iff (d : Nat) : ofNat? d = none ↔ ∀ k : Kind, k.toNat ≠ d := by
  constructor
  · intro h k hk
    rw [(ofNat_eq_some_iff d k).2 hk] at h
    cases h
  · intro h
    cases hd : ofNat? d with
    | none => rfl
    | some k => exact absurd ((ofNat_eq_some_iff d k).1 hd) (h k)

/-- Every kind number fits the 16-bit representation. -/
theorem toNat_fits (k : Kind) : k.toNat < 2 ^ 16 := Nat.lt_trans (toNat_lt k) (by decide)

example : ofNat? 6 = some .L_PAREN := rfl
example : ofNat? 117 = none := rfl

end Kind

namespace TokenSet

/-- The shift in `mask` never leaves the 128-bit word. -/
theorem mask_fits (k : Kind) : k.toNat < 128 ∧ mask k < 2 ^ 128 := by
  have h := Kind.toNat_lt k
  refine ⟨by omega, ?_⟩
  unfold mask
  rw [Nat.shiftLeft_eq, Nat.one_mul]
  exact Nat.pow_lt_pow_right (by decide) (by omega)

theorem testBit_mask (k : Kind) (i : Nat) : (mask k).testBit i = decide (k.toNat = i) := by
  unfold mask
  rw [Nat.shiftLeft_eq, Nat.one_mul, Nat.testBit_two_pow]

/-- Membership is one bit of the word. -/
theorem contains_eq_testBit (a : TokenSet) (k : Kind) : a.contains k = a.bits.testBit k.toNat := by
  unfold contains
  rw [Bool.eq_iff_iff]
  simp only [bne_iff_ne, ne_eq]
  constructor
  · intro h
    cases hb : a.bits.testBit k.toNat with
    | true => rfl
    | false =>
      exfalso
      apply h
      apply Nat.eq_of_testBit_eq
      intro i
      rw [Nat.testBit_and, testBit_mask, Nat.zero_testBit]
      by_cases hi : k.toNat = i
      · subst hi; simp [hb]
      · simp [hi]
  · intro h h0
    have : (a.bits &&& mask k).testBit k.toNat = true := by
      rw [Nat.testBit_and, testBit_mask, h]; simp
    rw [h0, Nat.zero_testBit] at this
    cases this

theorem foldl_testBit (ks : List Kind) (z i : Nat) :
    (ks.foldl (fun res k => res ||| mask k) z).testBit i
      = (z.testBit i || ks.any (fun k => k.toNat == i)) := by
  induction ks generalizing z with
  | nil => simp
  | cons k ks ih =>
    rw [List.foldl_cons, ih, Nat.testBit_or, testBit_mask, List.any_cons, Bool.or_assoc]
    congr 1

/-- **C36.**  A set built from a list contains exactly the listed kinds. -/
theorem contains_new (ks : List Kind) (k : Kind) : (new ks).contains k = true ↔ k ∈ ks := by
  rw [contains_eq_testBit]
  unfold new
  rw [foldl_testBit, Nat.zero_testBit, Bool.false_or, List.any_eq_true]
  constructor
  · rintro ⟨x, hx, hxk⟩
    have := Kind.toNat_inj (by simpa using hxk)
    exact this ▸ hx
  · intro h
    exact ⟨k, h, by simp⟩

/-- **C36.**  The union contains exactly the kinds of both sets. -/
theorem contains_union (a b : TokenSet) (k : Kind) :
    (a.union b).contains k = true ↔ a.contains k = true ∨ b.contains k = true := by
  simp only [contains_eq_testBit, union, Nat.testBit_or, Bool.or_eq_true]

/-- **C36.**  The empty set contains nothing. -/
theorem contains_empty (k : Kind) : EMPTY.contains k = false := by
  rw [contains_eq_testBit]; exact Nat.zero_testBit _

/-- **C36.**  No two kinds share a bit. -/
theorem mask_disjoint (a b : Kind) (h : a ≠ b) : mask a &&& mask b = 0 := by
  apply Nat.eq_of_testBit_eq
  intro i
  rw [Nat.testBit_and, testBit_mask, testBit_mask, Nat.zero_testBit]
  by_cases ha : a.toNat = i
  · have : b.toNat ≠ i := fun hb => h (Kind.toNat_inj (ha.trans hb.symm))
    simp [this]
  · simp [ha]

/-- **C36.**  Every set that the constructors build fits the 128-bit word: nothing is lost by
the machine representation. -/
theorem new_fits (ks : List Kind) : (new ks).bits < 2 ^ 128 := by
  unfold new
  suffices h : ∀ z, z < 2 ^ 128 → ks.foldl (fun res k => res ||| mask k) z < 2 ^ 128 from
    h 0 (by decide)
  induction ks with
  | nil => intro z hz; exact hz
  | cons k ks ih => intro z hz; exact ih _ (Nat.or_lt_two_pow hz (mask_fits k).2)

example : (new [.PLUS, .MINUS]).contains .MINUS = true := by decide
example : ((new [.PLUS]).union (new [.EOF])).contains .STAR = false := by decide

end TokenSet

end Verif
