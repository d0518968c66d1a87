import Verif.FileSet.Model
import Verif.Vfs.Props

namespace Verif.FileSet

open Verif.Vfs

/-! ### The automaton -/

theorem foldl_accept_none (t : Bytes) (key : Bytes) : key.foldl (accept t) none = none := by
  induction key with
  | nil => rfl
  | cons a as ih => simpa [accept] using ih

theorem foldl_accept (t key : Bytes) (n : Nat) :
    (key.foldl (accept t) (some n)).isSome ↔ key <+: t.drop n := by
  induction key generalizing n with
  | nil => simp
  | cons a as ih =>
    simp only [List.foldl_cons, accept]
    by_cases h : t[n]? = some a
    · rw [if_pos h, ih]
      have hlt := (List.getElem?_eq_some_iff.1 h).1
      have hv := (List.getElem?_eq_some_iff.1 h).2
      rw [List.drop_eq_getElem_cons hlt, hv]
      simp
    · rw [if_neg h, foldl_accept_none]
      simp only [Option.isSome_none, Bool.false_eq_true, false_iff]
      intro hp
      apply h
      obtain ⟨r, hr⟩ := hp
      have : (t.drop n)[0]? = some a := by rw [← hr]; simp
      simpa using this

theorem accepts_iff (t key : Bytes) : accepts t key = true ↔ key <+: t := by
  have := foldl_accept t key 0
  simpa [accepts] using this

/-! ### The order -/

theorem bytesLe_refl (a : Bytes) : bytesLe a a = true := by
  induction a with
  | nil => rfl
  | cons x xs ih => simp [bytesLe, ih]

theorem bytesLe_trans (a b c : Bytes) (h1 : bytesLe a b = true) (h2 : bytesLe b c = true) :
    bytesLe a c = true := by
  induction a generalizing b c with
  | nil => rfl
  | cons x xs ih =>
    cases b with
    | nil => simp [bytesLe] at h1
    | cons y ys =>
      cases c with
      | nil => simp [bytesLe] at h2
      | cons z zs =>
        simp only [bytesLe, Bool.or_eq_true, decide_eq_true_eq, Bool.and_eq_true, beq_iff_eq] at *
        rcases h1 with h1 | ⟨rfl, h1⟩
        · left
          rcases h2 with h2 | ⟨rfl, h2⟩
          · exact UInt8.lt_trans h1 h2
          · exact h1
        · rcases h2 with h2 | ⟨rfl, h2⟩
          · exact Or.inl h2
          · exact Or.inr ⟨rfl, ih _ _ h1 h2⟩

theorem bytesLe_total (a b : Bytes) : bytesLe a b = true ∨ bytesLe b a = true := by
  induction a generalizing b with
  | nil => simp [bytesLe]
  | cons x xs ih =>
    cases b with
    | nil => simp [bytesLe]
    | cons y ys =>
      simp only [bytesLe, Bool.or_eq_true, decide_eq_true_eq, Bool.and_eq_true, beq_iff_eq]
      by_cases hxy : x = y
      · subst hxy
        rcases ih ys with h | h
        · exact Or.inl (Or.inr ⟨rfl, h⟩)
        · exact Or.inr (Or.inr ⟨rfl, h⟩)
      · have : x < y ∨ y < x := by
          have h : x.toNat ≠ y.toNat := fun h => hxy (UInt8.toNat_inj.1 h)
          simp only [UInt8.lt_iff_toNat_lt]
          omega
        rcases this with h | h
        · exact Or.inl (Or.inl h)
        · exact Or.inr (Or.inl h)

theorem bytesLe_antisymm (a b : Bytes) (h1 : bytesLe a b = true) (h2 : bytesLe b a = true) : a = b := by
  induction a generalizing b with
  | nil => cases b with
    | nil => rfl
    | cons y ys => simp [bytesLe] at h2
  | cons x xs ih =>
    cases b with
    | nil => simp [bytesLe] at h1
    | cons y ys =>
      simp only [bytesLe, Bool.or_eq_true, decide_eq_true_eq, Bool.and_eq_true, beq_iff_eq] at *
      have hxy : x = y := by
        rcases h1 with h1 | h1
        · rcases h2 with h2 | h2
          · exfalso; simp only [UInt8.lt_iff_toNat_lt] at *; omega
          · exact h2.1.symm
        · exact h1.1
      subst hxy
      have hirr : ¬ x < x := UInt8.lt_irrefl x
      simp only [hirr, false_or, true_and] at h1 h2
      rw [ih ys h1 h2]

/-- A prefix is smaller. -/
theorem bytesLe_of_prefix {a b : Bytes} (h : a <+: b) : bytesLe a b = true := by
  obtain ⟨r, rfl⟩ := h
  induction a with
  | nil => rfl
  | cons x xs ih => simp [bytesLe, ih]

theorem entryLe_trans (a b c : Bytes × Nat) (h1 : entryLe a b = true) (h2 : entryLe b c = true) :
    entryLe a c = true := by
  obtain ⟨a1, a2⟩ := a
  obtain ⟨b1, b2⟩ := b
  obtain ⟨c1, c2⟩ := c
  unfold entryLe at *
  simp only at *
  by_cases hab : a1 = b1
  · subst hab
    by_cases hac : a1 = c1
    · subst hac; simp at *; omega
    · rw [if_neg hac] at h2 ⊢; exact h2
  · rw [if_neg hab] at h1
    by_cases hbc : b1 = c1
    · subst hbc; rw [if_neg hab]; exact h1
    · rw [if_neg hbc] at h2
      by_cases hac : a1 = c1
      · subst hac; exact absurd (bytesLe_antisymm _ _ h1 h2) hab
      · rw [if_neg hac]; exact bytesLe_trans _ _ _ h1 h2

theorem entryLe_total (a b : Bytes × Nat) : (entryLe a b || entryLe b a) = true := by
  obtain ⟨a1, a2⟩ := a
  obtain ⟨b1, b2⟩ := b
  unfold entryLe
  by_cases hab : a1 = b1
  · subst hab; simp; omega
  · simp only [if_neg hab, if_neg (Ne.symm hab), Bool.or_eq_true]; exact bytesLe_total _ _

theorem entryLe_key {a b : Bytes × Nat} (h : entryLe a b = true) : bytesLe a.1 b.1 = true := by
  unfold entryLe at h
  split at h
  · rename_i he; rw [he]; exact bytesLe_refl _
  · exact h

/-! ### Deduplication -/

/-- Strictly smaller keys. -/
def KeyLt (a b : Bytes × Nat) : Prop := bytesLe a.1 b.1 = true ∧ a.1 ≠ b.1

theorem keyLt_of_lt_le {a b c : Bytes × Nat} (h1 : KeyLt a b) (h2 : bytesLe b.1 c.1 = true) : KeyLt a c := by
  refine ⟨bytesLe_trans _ _ _ h1.1 h2, ?_⟩
  intro he
  apply h1.2
  exact bytesLe_antisymm _ _ h1.1 (by rw [he]; exact h2)

theorem dedupFrom_spec (prev : Bytes × Nat) (l : List (Bytes × Nat))
    (hs : (prev :: l).Pairwise (fun a b => entryLe a b = true)) :
    (prev :: dedupFrom prev l).Pairwise KeyLt ∧
    (∀ e ∈ dedupFrom prev l, e ∈ l) ∧
    (∀ e ∈ l, ∃ d ∈ prev :: dedupFrom prev l, d.1 = e.1 ∧ d.2 ≤ e.2) := by
  induction l generalizing prev with
  | nil => simp [dedupFrom]
  | cons e es ih =>
    obtain ⟨hp, hes⟩ := List.pairwise_cons.1 hs
    obtain ⟨he, hess⟩ := List.pairwise_cons.1 hes
    unfold dedupFrom
    split
    · rename_i heq
      obtain ⟨h1, h2, h3⟩ := ih prev (List.pairwise_cons.2 ⟨fun x hx => hp x (by simp [hx]), hess⟩)
      refine ⟨h1, fun x hx => by simp [h2 x hx], ?_⟩
      intro x hx
      rcases List.mem_cons.1 hx with rfl | hx
      · refine ⟨prev, by simp, heq.symm, ?_⟩
        have := hp x (by simp)
        unfold entryLe at this
        rw [if_pos heq.symm] at this
        simpa using this
      · exact h3 x hx
    · rename_i hne
      obtain ⟨h1, h2, h3⟩ := ih e hes
      have hlt : KeyLt prev e := ⟨entryLe_key (hp e (by simp)), fun h => hne h.symm⟩
      refine ⟨?_, ?_, ?_⟩
      · rw [List.pairwise_cons]
        refine ⟨?_, h1⟩
        intro x hx
        rcases List.mem_cons.1 hx with rfl | hx
        · exact hlt
        · exact keyLt_of_lt_le hlt ((List.pairwise_cons.1 h1).1 x hx).1
      · intro x hx
        rcases List.mem_cons.1 hx with rfl | hx
        · simp
        · simp [h2 x hx]
      · intro x hx
        rcases List.mem_cons.1 hx with rfl | hx
        · exact ⟨x, by simp, rfl, Nat.le_refl _⟩
        · obtain ⟨d, hd, hd2⟩ := h3 x hx
          exact ⟨d, by simp only [List.mem_cons] at hd ⊢; exact Or.inr hd, hd2⟩

theorem dedup_spec (l : List (Bytes × Nat)) (hs : l.Pairwise (fun a b => entryLe a b = true)) :
    (dedup l).Pairwise KeyLt ∧ (∀ e ∈ dedup l, e ∈ l) ∧
    (∀ e ∈ l, ∃ d ∈ dedup l, d.1 = e.1 ∧ d.2 ≤ e.2) := by
  cases l with
  | nil => simp [dedup]
  | cons e es =>
    obtain ⟨h1, h2, h3⟩ := dedupFrom_spec e es hs
    refine ⟨h1, ?_, ?_⟩
    · intro x hx
      rcases List.mem_cons.1 hx with rfl | hx
      · simp
      · simp [h2 x hx]
    · intro x hx
      rcases List.mem_cons.1 hx with rfl | hx
      · exact ⟨x, by simp [dedup], rfl, Nat.le_refl _⟩
      · exact h3 x hx

theorem fstFromIter_some (l : List (Bytes × Nat)) (h : l.Pairwise KeyLt) : fstFromIter l = some l := by
  induction l with
  | nil => rfl
  | cons a l ih =>
    cases l with
    | nil => rfl
    | cons b rest =>
      obtain ⟨h1, h2⟩ := List.pairwise_cons.1 h
      have hab := h1 b (by simp)
      unfold fstFromIter
      rw [if_pos (by simp [hab.1, hab.2]), ih h2]
      rfl

theorem mem_collect (roots : List (List VfsPath)) (n : Nat) (k : Bytes) (i : Nat) :
    (k, i) ∈ collect roots n ↔ ∃ j paths p, roots[j]? = some paths ∧ p ∈ paths ∧ k = p.encode ∧ i = n + j := by
  induction roots generalizing n with
  | nil => simp [collect]
  | cons ps rest ih =>
    simp only [collect, List.mem_append, List.mem_map, ih]
    constructor
    · rintro (⟨p, hp, he⟩ | ⟨j, paths, p, h1, h2, h3, h4⟩)
      · simp at he
        exact ⟨0, ps, p, by simp, hp, he.1.symm, by omega⟩
      · exact ⟨j + 1, paths, p, by simpa using h1, h2, h3, by omega⟩
    · rintro ⟨j, paths, p, h1, h2, h3, h4⟩
      cases j with
      | zero => simp at h1; subst h1; left; exact ⟨p, h2, by simp [h3, h4]⟩
      | succ j => right; exact ⟨j, paths, p, by simpa using h1, h2, h3, by omega⟩

/-- What `build` produces. -/
theorem build_spec (roots : List (List VfsPath)) :
    ∃ c, build roots = some c ∧ c.nFileSets = roots.length + 1 ∧ c.map.Pairwise KeyLt ∧
      (∀ e ∈ c.map, e ∈ collect roots 0) ∧
      (∀ e ∈ collect roots 0, ∃ d ∈ c.map, d.1 = e.1 ∧ d.2 ≤ e.2) := by
  have hs := List.pairwise_mergeSort entryLe_trans entryLe_total (collect roots 0)
  have hp := List.mergeSort_perm (collect roots 0) entryLe
  obtain ⟨h1, h2, h3⟩ := dedup_spec _ hs
  refine ⟨⟨roots.length + 1, dedup ((collect roots 0).mergeSort entryLe)⟩, ?_, rfl, h1,
    fun e he => hp.mem_iff.1 (h2 e he), fun e he => h3 e (hp.mem_iff.2 he)⟩
  unfold build
  rw [fstFromIter_some _ h1]

theorem foldl_last {α β : Type} (f : α → β) (l : List α) (d : β) :
    l.foldl (fun _ e => f e) d = match l.getLast? with
      | none => d
      | some e => f e := by
  induction l generalizing d with
  | nil => rfl
  | cons a l ih =>
    rw [List.foldl_cons, ih]
    cases l with
    | nil => rfl
    | cons b l => rw [List.getLast?_cons_cons, List.getLast?_eq_some_getLast (by simp)]

theorem prefix_of_prefix_le {a b t : Bytes} (h1 : a <+: t) (h2 : b <+: t) (h : bytesLe a b = true) :
    a <+: b := by
  rcases List.prefix_or_prefix_of_prefix h1 h2 with h' | h'
  · exact h'
  · rw [bytesLe_antisymm _ _ h (bytesLe_of_prefix h')]
    exact List.prefix_refl _

end Verif.FileSet
