import Verif.AstGen.Lower
import Verif.AstGen.Kinds

set_option autoImplicit false

/-!
C64: the names of the accessors of tokens.
-/

namespace Verif.AstGen

theorem dropWhile_quotes (a t : Text) (ha : ∀ c ∈ a, c = '\'') (ht : t.head? ≠ some '\'') :
    (a ++ t).dropWhile (fun c => c = '\'') = t := by
  induction a with
  | nil =>
    cases t with
    | nil => rfl
    | cons c t => rw [List.nil_append, List.dropWhile_cons_of_neg]; simpa using ht
  | cons c a ih =>
    rw [List.cons_append, List.dropWhile_cons_of_pos (by simp [ha c (by simp)])]
    exact ih fun x hx => ha x (by simp [hx])

/-- The quotes around a text are taken off. -/
theorem trimQuotes_of (a t b : Text) (ha : ∀ c ∈ a, c = '\'') (hb : ∀ c ∈ b, c = '\'') (h1 : t.head? ≠ some '\'')
    (h2 : t.getLast? ≠ some '\'') (hn : t ≠ []) : trimQuotes (a ++ (t ++ b)) = t := by
  unfold trimQuotes
  rw [dropWhile_quotes a _ ha (by cases t with | nil => exact absurd rfl hn | cons c t => simpa using h1),
    List.reverse_append, dropWhile_quotes b.reverse _ (by simpa using hb) (by rw [List.head?_reverse]; exact h2),
    List.reverse_reverse]

/-- **C64**: the accessor of a token is called after its kind, if it is punctuation, in quotes or not, and after
itself otherwise.  The names of the kinds are those of the enumeration of kinds. -/
theorem token_accessors :
    (∀ p ∈ kindsSrc.punct, (Field.token p.1).methodName = p.2.map Char.toLower ++ "_token".toList ∧
      (Field.token ('\'' :: (p.1 ++ ['\'']))).methodName = p.2.map Char.toLower ++ "_token".toList) ∧
    ∀ name : Text, '\'' ∉ name → (∀ p ∈ kindsSrc.punct, p.1 ≠ name) → (Field.token name).methodName = name ++ "_token".toList := by
  refine ⟨by decide +kernel, ?_⟩
  intro name hq hp
  have ht : trimQuotes name = name := by
    cases name with
    | nil => rfl
    | cons c t =>
      have := trimQuotes_of [] (c :: t) [] (by simp) (by simp) (by intro h; simp at h; exact hq (by simp [h]))
        (by intro h; exact hq (List.mem_of_getLast? h)) (by simp)
      simpa using this
  have hm : punct.map Prod.fst = kindsSrc.punct.map Prod.fst := by decide +kernel
  have hf : (punct.find? fun p => trimQuotes name = p.1) = none := by
    rw [List.find?_eq_none]
    intro p hmem h
    rw [ht, decide_eq_true_eq] at h
    have : p.1 ∈ kindsSrc.punct.map Prod.fst := hm ▸ List.mem_map_of_mem hmem
    obtain ⟨p', hm', e⟩ := List.mem_map.1 this
    exact hp p' hm' (by rw [e, h])
  simp only [Field.methodName, hf]

/-- **C64**: the accessor of a node has the name of the constituent; only `type`, a word of Rust, is written `ty`. -/
theorem node_accessors (name ty : Text) (card : Cardinality) :
    (name ≠ "type".toList → (Field.node name ty card).methodName = name) ∧
    (Field.node "type".toList ty card).methodName = "ty".toList :=
  ⟨fun h => by simp only [Field.methodName, if_neg h], by simp only [Field.methodName, if_true]⟩

example : (Field.token "'{'".toList).methodName = "l_brace_token".toList ∧
    (Field.token "fun".toList).methodName = "fun_token".toList := by decide

end Verif.AstGen
