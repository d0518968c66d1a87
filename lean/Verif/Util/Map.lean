/-!
Finite maps with `Nat`-like or arbitrary keys as association lists, standing for the
`HashMap`s of the code.  Keys are kept distinct by `insert`; the order of the list is the
iteration order, about which nothing is assumed in the theorems.
-/

namespace Verif

/-- A finite map: at most one pair per key is ever visible. -/
abbrev AMap (K V : Type) := List (K × V)

namespace AMap

variable {K V : Type} [DecidableEq K]

/-- `HashMap::get`. -/
def get : AMap K V → K → Option V
  | [], _ => none
  | (k', v) :: m, k => if k' = k then some v else get m k

/-- `HashMap::remove`. -/
def erase : AMap K V → K → AMap K V
  | [], _ => []
  | (k', v) :: m, k => if k' = k then erase m k else (k', v) :: erase m k

/-- `HashMap::insert`. -/
def insert (m : AMap K V) (k : K) (v : V) : AMap K V := erase m k ++ [(k, v)]

/-- `HashMap::keys`. -/
def keys (m : AMap K V) : List K := m.map (·.1)

theorem get_append (m n : AMap K V) (k : K) :
    get (m ++ n) k = (get m k).or (get n k) := by
  induction m with
  | nil => simp [get]
  | cons a m ih =>
    obtain ⟨k', v⟩ := a
    simp only [List.cons_append, get]
    split <;> simp [ih]

theorem get_erase (m : AMap K V) (k k' : K) :
    get (erase m k) k' = if k = k' then none else get m k' := by
  induction m with
  | nil => simp [erase, get]
  | cons a m ih =>
    obtain ⟨j, v⟩ := a
    simp only [erase]
    by_cases h : j = k
    · subst h; simp only [if_true, ih, get]
      by_cases h2 : j = k' <;> simp [h2]
    · simp only [if_neg h, get, ih]
      by_cases h2 : j = k'
      · subst h2; simp [Ne.symm h]
      · simp [h2]

theorem get_insert (m : AMap K V) (k k' : K) (v : V) :
    get (insert m k v) k' = if k = k' then some v else get m k' := by
  unfold insert
  rw [get_append, get_erase]
  by_cases h : k = k'
  · subst h; simp [get]
  · simp [h, get]

theorem mem_keys (m : AMap K V) (k : K) : k ∈ keys m ↔ (get m k).isSome := by
  induction m with
  | nil => simp [keys, get]
  | cons a m ih =>
    obtain ⟨j, v⟩ := a
    simp only [keys, List.map_cons, List.mem_cons, get] at ih ⊢
    by_cases h : j = k
    · simp [h]
    · simp only [if_neg h, ← ih]
      constructor
      · rintro (rfl | hm)
        · exact absurd rfl h
        · exact hm
      · exact Or.inr

theorem get_eq_none (m : AMap K V) (k : K) : get m k = none ↔ k ∉ keys m := by
  rw [mem_keys]; cases get m k <;> simp

theorem keys_erase (m : AMap K V) (k : K) : keys (erase m k) = (keys m).filter (fun x => x ≠ k) := by
  induction m with
  | nil => rfl
  | cons a m ih =>
    obtain ⟨j, v⟩ := a
    simp only [keys, erase, List.map_cons] at ih ⊢
    by_cases h : j = k
    · subst h; simp [ih]
    · simp [h, ih]

theorem nodup_erase {m : AMap K V} (h : (keys m).Nodup) (k : K) : (keys (erase m k)).Nodup := by
  rw [keys_erase]; exact h.filter _

theorem nodup_insert {m : AMap K V} (h : (keys m).Nodup) (k : K) (v : V) : (keys (insert m k v)).Nodup := by
  unfold insert
  have : keys (erase m k ++ [(k, v)]) = keys (erase m k) ++ [k] := by simp [keys]
  rw [this, List.nodup_append]
  refine ⟨nodup_erase h k, by simp, ?_⟩
  intro a ha b hb
  rw [keys_erase] at ha
  simp at ha hb
  subst hb
  exact ha.2

theorem mem_of_get {m : AMap K V} {k : K} {v : V} (h : get m k = some v) : (k, v) ∈ m := by
  induction m with
  | nil => simp [get] at h
  | cons a m ih =>
    obtain ⟨j, w⟩ := a
    simp only [get] at h
    split at h
    · rename_i hj; simp at h; subst hj; subst h; simp
    · exact List.mem_cons_of_mem _ (ih h)

end AMap
end Verif
