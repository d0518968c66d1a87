import Verif.AstGen.Lower

set_option autoImplicit false

/-!
The passes of `lower` in terms of lists.
-/

namespace Verif.AstGen

/-! ### The loop over the rules -/

theorem lowerNodes_some (g : Grammar) (ast0 ast : Ast) (h : lowerNodes g ast0 = some ast) :
    (∃ N, ast.nodes = ast0.nodes ++ N ∧ List.Sublist (N.map Node.name) (g.map Prod.fst) ∧
      (∀ n, n ∈ N → n.traits = [] ∧ ∃ r, (n.name, r) ∈ g ∧ ¬ IsChoice r ∧ lowerRule [] none r = some n.fields) ∧
      (∀ name r, (name, r) ∈ g → ¬ IsChoice r → ∃ n, n ∈ N ∧ n.name = name ∧ lowerRule [] none r = some n.fields)) ∧
    (∃ E, ast.enums = ast0.enums ++ E ∧ List.Sublist (E.map Enum.name) (g.map Prod.fst) ∧
      (∀ e, e ∈ E → ∃ r, (e.name, r) ∈ g ∧ IsChoice r ∧ ∀ v, v ∈ e.variants ↔ Alternative r v) ∧
      (∀ name r, (name, r) ∈ g → IsChoice r →
        ∃ e, e ∈ E ∧ e.name = name ∧ ∀ v, v ∈ e.variants ↔ Alternative r v)) := by
  induction g generalizing ast0 with
  | nil =>
    simp only [lowerNodes, Option.some.injEq] at h
    subst h
    exact ⟨⟨[], by simp, by simp, by simp, by simp⟩, ⟨[], by simp, by simp, by simp, by simp⟩⟩
  | cons p g ih =>
    obtain ⟨name, r⟩ := p
    simp only [lowerNodes] at h
    split at h
    next vs hvs =>
      obtain ⟨hc, hv⟩ := lowerEnum_some hvs
      obtain ⟨⟨N, hN, hNs, hN1, hN2⟩, ⟨E, hE, hEs, hE1, hE2⟩⟩ := ih _ h
      refine ⟨⟨N, hN, ?_, ?_, ?_⟩, ⟨⟨name, [], vs⟩ :: E, ?_, ?_, ?_, ?_⟩⟩
      · exact hNs.trans (List.sublist_cons_self _ _)
      · intro n hn
        obtain ⟨ht, r', hr, hx⟩ := hN1 n hn
        exact ⟨ht, r', List.mem_cons_of_mem _ hr, hx⟩
      · intro name' r' hm hn
        rcases List.mem_cons.mp hm with he | hm
        · cases he; exact absurd hc hn
        · exact hN2 _ _ hm hn
      · rw [hE]; simp
      · simpa using hEs.cons_cons name
      · intro e he
        rcases List.mem_cons.mp he with rfl | he
        · exact ⟨r, by simp, hc, hv⟩
        · obtain ⟨r', hr, hx⟩ := hE1 e he
          exact ⟨r', List.mem_cons_of_mem _ hr, hx⟩
      · intro name' r' hm hn
        rcases List.mem_cons.mp hm with he | hm
        · cases he
          exact ⟨_, List.mem_cons_self, rfl, hv⟩
        · obtain ⟨e, he, hx⟩ := hE2 _ _ hm hn
          exact ⟨e, List.mem_cons_of_mem _ he, hx⟩
    next hnone =>
      have hc := lowerEnum_none hnone
      split at h
      · cases h
      next fields hf =>
        obtain ⟨⟨N, hN, hNs, hN1, hN2⟩, ⟨E, hE, hEs, hE1, hE2⟩⟩ := ih _ h
        refine ⟨⟨⟨name, [], fields⟩ :: N, ?_, ?_, ?_, ?_⟩, ⟨E, hE, ?_, ?_, ?_⟩⟩
        · rw [hN]; simp
        · simpa using hNs.cons_cons name
        · intro n hn
          rcases List.mem_cons.mp hn with rfl | hn
          · exact ⟨rfl, r, by simp, hc, hf⟩
          · obtain ⟨ht, r', hr, hx⟩ := hN1 n hn
            exact ⟨ht, r', List.mem_cons_of_mem _ hr, hx⟩
        · intro name' r' hm hn
          rcases List.mem_cons.mp hm with he | hm
          · cases he
            exact ⟨_, List.mem_cons_self, rfl, hf⟩
          · obtain ⟨n, hn', hx⟩ := hN2 _ _ hm hn
            exact ⟨n, List.mem_cons_of_mem _ hn', hx⟩
        · exact hEs.trans (List.sublist_cons_self _ _)
        · intro e he
          obtain ⟨r', hr, hx⟩ := hE1 e he
          exact ⟨r', List.mem_cons_of_mem _ hr, hx⟩
        · intro name' r' hm hn
          rcases List.mem_cons.mp hm with he | hm
          · cases he; exact absurd hn hc
          · exact hE2 _ _ hm hn

theorem lowerNodes_none (g : Grammar) (ast0 : Ast) :
    lowerNodes g ast0 = none ↔ ∃ p, p ∈ g ∧ ¬ IsChoice p.2 ∧ ¬ Supported none p.2 := by
  induction g generalizing ast0 with
  | nil => simp [lowerNodes]
  | cons p g ih =>
    obtain ⟨name, r⟩ := p
    simp only [lowerNodes]
    split
    next vs hvs =>
      obtain ⟨hc, hv⟩ := lowerEnum_some hvs
      rw [ih]
      simp [hc]
    next hnone =>
      have hc := lowerEnum_none hnone
      have hg := lowerRule_good r [] none
      split
      next hf =>
        rw [hf] at hg
        simp only [true_iff]
        exact ⟨_, List.mem_cons_self, hc, hg⟩
      next fields hf =>
        rw [hf] at hg
        rw [ih]
        have hs : Supported none r := hg.1
        simp [hs]

/-! ### Removal passes -/

/-- The fields of the types of an enum's variants. -/
def variantField (e : Enum) (f : Field) : Bool := e.variants.any fun v => decide (v = f.ty)

theorem variantField_iff (e : Enum) (f : Field) : variantField e f = true ↔ f.ty ∈ e.variants := by
  unfold variantField
  rw [List.any_eq_true]
  constructor
  · rintro ⟨v, hv, h⟩
    rw [← of_decide_eq_true h]
    exact hv
  · intro h
    exact ⟨_, h, by simp⟩

/-- `extract_enums` for one enum, without the indices. -/
def extractEnumPure (fields : List Field) (e : Enum) : List Field :=
  if (fields.filter (variantField e)).length = e.variants.length then
    (fields.filter fun f => !variantField e f) ++ [enumField e]
  else fields

theorem extractEnum_eq (fields : List Field) (e : Enum) :
    extractEnum fields e = some (extractEnumPure fields e) := by
  have h1 := indicesFrom_length (variantField e) 0 fields
  have h2 := removeField_indices (variantField e) fields
  simp only [extractEnum, extractEnumPure]
  change (if (indicesFrom (variantField e) 0 fields).length = e.variants.length then
    match removeField (indicesFrom (variantField e) 0 fields) fields with
    | none => none
    | some fields => some (fields ++ [enumField e])
    else some fields) = _
  rw [h1, h2]
  split <;> rfl

theorem extractEnumsLoop_eq (es : List Enum) (fields : List Field) :
    extractEnumsLoop es fields = some (es.foldl extractEnumPure fields) := by
  induction es generalizing fields with
  | nil => rfl
  | cons e es ih =>
    simp only [extractEnumsLoop, extractEnum_eq, List.foldl_cons]
    exact ih _

theorem forNodes_eq (f : Node → Option Node) (g : Node → Node) (h : ∀ n, f n = some (g n)) (ns : List Node) :
    forNodes f ns = some (ns.map g) := by
  induction ns with
  | nil => rfl
  | cons n ns ih => simp [forNodes, h, ih]

/-- `extract_enums` for one node, without the indices. -/
def enumsPure (enums : List Enum) (n : Node) : Node :=
  { n with fields := enums.foldl extractEnumPure n.fields }

theorem extractEnums_eq (ast : Ast) :
    extractEnums ast = some { ast with nodes := ast.nodes.map (enumsPure ast.enums) } := by
  unfold extractEnums
  rw [forNodes_eq _ (enumsPure ast.enums)]
  intro n
  simp only [extractEnumsNode, extractEnumsLoop_eq]
  rfl

/-- The fields with one of the methods of a trait. -/
def traitField (tr : Text × List Text) (f : Field) : Bool := tr.2.any fun m => decide (m = f.methodName)

theorem traitField_iff (tr : Text × List Text) (f : Field) : traitField tr f = true ↔ f.methodName ∈ tr.2 := by
  unfold traitField
  rw [List.any_eq_true]
  constructor
  · rintro ⟨v, hv, h⟩
    rw [← of_decide_eq_true h]
    exact hv
  · intro h
    exact ⟨_, h, by simp⟩

/-- `extract_struct_trait` without the indices. -/
def traitPure (n : Node) (tr : Text × List Text) : Node :=
  if (n.fields.filter (traitField tr)).length = tr.2.length then
    { n with traits := n.traits ++ [tr.1], fields := n.fields.filter fun f => !traitField tr f }
  else n

theorem extractStructTrait_eq (n : Node) (tr : Text × List Text) :
    extractStructTrait n tr = some (traitPure n tr) := by
  have h1 := indicesFrom_length (traitField tr) 0 n.fields
  have h2 := removeField_indices (traitField tr) n.fields
  simp only [extractStructTrait, traitPure]
  change (if (indicesFrom (traitField tr) 0 n.fields).length = tr.2.length then
    match removeField (indicesFrom (traitField tr) 0 n.fields) n.fields with
    | none => none
    | some fields => some { n with traits := n.traits ++ [tr.1], fields := fields }
    else some n) = _
  rw [h1, h2]
  split <;> rfl

theorem extractStructTraitsLoop_eq (trs : List (Text × List Text)) (n : Node) :
    extractStructTraitsLoop trs n = some (trs.foldl traitPure n) := by
  induction trs generalizing n with
  | nil => rfl
  | cons tr trs ih =>
    simp only [extractStructTraitsLoop, extractStructTrait_eq, List.foldl_cons]
    exact ih _

theorem extractStructTraits_eq (ast : Ast) :
    extractStructTraits ast = some { ast with nodes := ast.nodes.map (structTraits.foldl traitPure) } := by
  unfold extractStructTraits
  rw [forNodes_eq _ (structTraits.foldl traitPure)]
  intro n
  exact extractStructTraitsLoop_eq _ n

/-! ### Traits of enums -/

theorem variantTraits_none (nodes : List Node) (v : Text) :
    variantTraits nodes v = none ↔ ¬ ∃ n, n ∈ nodes ∧ n.name = v := by
  unfold variantTraits
  cases hf : nodes.find? fun n => decide (n.name = v) with
  | none =>
    rw [List.find?_eq_none] at hf
    simp only [true_iff]
    rintro ⟨n, hn, he⟩
    exact hf n hn (by simp [he])
  | some n =>
    have h1 := List.find?_some hf
    have h2 := List.mem_of_find?_eq_some hf
    simp only [reduceCtorEq, false_iff, Classical.not_not]
    exact ⟨n, h2, by simpa using h1⟩

theorem intersectTraits_none (nodes : List Node) (vs acc : List Text) :
    intersectTraits nodes vs acc = none ↔ ∃ v, v ∈ vs ∧ ¬ ∃ n, n ∈ nodes ∧ n.name = v := by
  induction vs generalizing acc with
  | nil => simp [intersectTraits]
  | cons v vs ih =>
    simp only [intersectTraits]
    cases hv : variantTraits nodes v with
    | none =>
      rw [variantTraits_none] at hv
      simp only [true_iff]
      exact ⟨v, by simp, hv⟩
    | some ts =>
      have hv' : ¬ ¬ ∃ n, n ∈ nodes ∧ n.name = v := by
        rw [← variantTraits_none, hv]; simp
      simp only []
      rw [ih]
      constructor
      · rintro ⟨w, hw, h⟩; exact ⟨w, by simp [hw], h⟩
      · rintro ⟨w, hw, h⟩
        rcases List.mem_cons.mp hw with rfl | hw
        · exact absurd h hv'
        · exact ⟨w, hw, h⟩

theorem extractEnumTrait_none (nodes : List Node) (e : Enum) :
    extractEnumTrait nodes e = none ↔
      e.name ≠ "Stmt".toList ∧ ∃ v, v ∈ e.variants ∧ ¬ ∃ n, n ∈ nodes ∧ n.name = v := by
  unfold extractEnumTrait
  split
  next h => simp [h]
  next h =>
    cases hvs : e.variants with
    | nil => simp
    | cons v vs =>
      simp only []
      cases hv : variantTraits nodes v with
      | none =>
        rw [variantTraits_none] at hv
        simp only [true_iff]
        exact ⟨h, v, by simp, hv⟩
      | some ts =>
        have hv' : ¬ ¬ ∃ n, n ∈ nodes ∧ n.name = v := by
          rw [← variantTraits_none, hv]; simp
        have hi := intersectTraits_none nodes vs ts
        have e1 : (∃ w, w ∈ v :: vs ∧ ¬ ∃ n, n ∈ nodes ∧ n.name = w) ↔
            ∃ w, w ∈ vs ∧ ¬ ∃ n, n ∈ nodes ∧ n.name = w := by
          constructor
          · rintro ⟨w, hw, hx⟩
            rcases List.mem_cons.mp hw with rfl | hw
            · exact absurd hx hv'
            · exact ⟨w, hw, hx⟩
          · rintro ⟨w, hw, hx⟩; exact ⟨w, by simp [hw], hx⟩
        rw [e1]
        simp only []
        cases hx : intersectTraits nodes vs ts with
        | none => simp only [true_iff]; exact ⟨h, hi.mp hx⟩
        | some ts' =>
          simp only [reduceCtorEq, false_iff]
          rintro ⟨_, hy⟩
          rw [hi.mpr hy] at hx
          cases hx

theorem extractEnumTraitsLoop_none (nodes : List Node) (es : List Enum) :
    extractEnumTraitsLoop nodes es = none ↔ ∃ e, e ∈ es ∧ extractEnumTrait nodes e = none := by
  induction es with
  | nil => simp [extractEnumTraitsLoop]
  | cons e es ih =>
    simp only [extractEnumTraitsLoop]
    cases he : extractEnumTrait nodes e with
    | none => simp only [true_iff]; exact ⟨e, by simp, he⟩
    | some e' =>
      cases hl : extractEnumTraitsLoop nodes es with
      | none =>
        simp only [true_iff]
        obtain ⟨x, hx, h⟩ := ih.mp hl
        exact ⟨x, by simp [hx], h⟩
      | some es' =>
        simp only [reduceCtorEq, false_iff]
        rintro ⟨x, hx, h⟩
        rcases List.mem_cons.mp hx with rfl | hx
        · rw [he] at h; cases h
        · rw [ih.mpr ⟨x, hx, h⟩] at hl
          cases hl

theorem extractEnumTrait_some {nodes : List Node} {e e' : Enum} (h : extractEnumTrait nodes e = some e') :
    e'.name = e.name ∧ e'.variants = e.variants := by
  unfold extractEnumTrait at h
  repeat' split at h
  all_goals cases h
  all_goals exact ⟨rfl, rfl⟩

theorem extractEnumTraitsLoop_some {nodes : List Node} {es es' : List Enum}
    (h : extractEnumTraitsLoop nodes es = some es') :
    es'.map (fun e => (e.name, e.variants)) = es.map (fun e => (e.name, e.variants)) := by
  induction es generalizing es' with
  | nil => simp only [extractEnumTraitsLoop, Option.some.injEq] at h; subst h; rfl
  | cons e es ih =>
    simp only [extractEnumTraitsLoop] at h
    cases he : extractEnumTrait nodes e with
    | none => rw [he] at h; cases h
    | some e1 =>
      rw [he] at h
      cases hl : extractEnumTraitsLoop nodes es with
      | none => rw [hl] at h; cases h
      | some es1 =>
        rw [hl] at h
        cases h
        simp [extractEnumTrait_some he, ih hl]

theorem foldl_traitPure_name (trs : List (Text × List Text)) (n : Node) : (trs.foldl traitPure n).name = n.name := by
  induction trs generalizing n with
  | nil => rfl
  | cons tr trs ih =>
    rw [List.foldl_cons, ih]
    unfold traitPure
    split <;> rfl

/-- `lower` as a composition of the passes. -/
theorem lower_eq (g : Grammar) : lower g =
    match lowerNodes g ⟨[], []⟩ with
    | none => none
    | some ast => extractEnumTraits
        { nodes := ast.nodes.map fun n =>
            structTraits.foldl traitPure (enumsPure ast.enums { n with fields := dedupLoop [] n.fields }),
          enums := ast.enums } := by
  unfold lower
  cases lowerNodes g ⟨[], []⟩ with
  | none => rfl
  | some ast =>
    simp only [extractEnums_eq, extractStructTraits_eq, deduplicateFields, List.map_map]
    generalize structTraits = T
    rfl

end Verif.AstGen
