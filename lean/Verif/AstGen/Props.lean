import Verif.AstGen.Passes

set_option autoImplicit false

/-!
C49 (unique accessors) and C64 (every constituent has an accessor): the generated classes.
-/

namespace Verif.AstGen

/-- The passes after the deduplication, on one class. -/
def finishNode (E : List Enum) (n : Node) : Node :=
  structTraits.foldl traitPure (enumsPure E { n with fields := dedupLoop [] n.fields })

theorem finishNode_name (E : List Enum) (n : Node) : (finishNode E n).name = n.name :=
  foldl_traitPure_name _ _

/-- The lowered classes and choices. -/
structure Lowered (g : Grammar) (ast : Ast) (N : List Node) (E : List Enum) : Prop where
  nodes : ast.nodes = N.map (finishNode E)
  enums : ast.enums.map (fun e => (e.name, e.variants)) = E.map (fun e => (e.name, e.variants))
  nNames : List.Sublist (N.map Node.name) (g.map Prod.fst)
  eNames : List.Sublist (E.map Enum.name) (g.map Prod.fst)
  nFrom : ∀ n, n ∈ N → n.traits = [] ∧ ∃ r, (n.name, r) ∈ g ∧ ¬ IsChoice r ∧ lowerRule [] none r = some n.fields
  nTo : ∀ name r, (name, r) ∈ g → ¬ IsChoice r → ∃ n, n ∈ N ∧ n.name = name ∧ lowerRule [] none r = some n.fields
  eFrom : ∀ e, e ∈ E → ∃ r, (e.name, r) ∈ g ∧ IsChoice r ∧ ∀ v, v ∈ e.variants ↔ Alternative r v
  eTo : ∀ name r, (name, r) ∈ g → IsChoice r → ∃ e, e ∈ E ∧ e.name = name ∧ ∀ v, v ∈ e.variants ↔ Alternative r v

theorem lower_some {g : Grammar} {ast : Ast} (h : lower g = some ast) : ∃ N E, Lowered g ast N E := by
  rw [lower_eq] at h
  split at h
  · cases h
  next ast0 h0 =>
    obtain ⟨⟨N, hN, hNs, hN1, hN2⟩, ⟨E, hE, hEs, hE1, hE2⟩⟩ := lowerNodes_some g _ _ h0
    simp only [List.nil_append] at hN hE
    simp only [extractEnumTraits] at h
    split at h
    · cases h
    next es hes =>
      cases h
      refine ⟨N, E, ?_, ?_, hNs, hEs, hN1, hN2, hE1, hE2⟩
      · rw [← hN, ← hE]
        unfold finishNode
        rfl
      · rw [← hE]
        exact extractEnumTraitsLoop_some hes

theorem extractEnumTraits_none (ast : Ast) :
    extractEnumTraits ast = none ↔ extractEnumTraitsLoop ast.nodes ast.enums = none := by
  unfold extractEnumTraits
  cases extractEnumTraitsLoop ast.nodes ast.enums <;> simp

/-- C64 (when the generator stops): it panics exactly when a class has an unsupported rule (a label on a
token or inside a label, a repetition of something else than a class), or when a choice other than
`Stmt` has an alternative that is itself a choice or is not defined. -/
theorem lower_panics_iff (g : Grammar) : lower g = none ↔
    (∃ p, p ∈ g ∧ ¬ IsChoice p.2 ∧ ¬ Supported none p.2) ∨
    (∃ p, p ∈ g ∧ IsChoice p.2 ∧ p.1 ≠ "Stmt".toList ∧
      ∃ v, Alternative p.2 v ∧ ¬ ∃ q, q ∈ g ∧ q.1 = v ∧ ¬ IsChoice q.2) := by
  rw [lower_eq]
  cases h0 : lowerNodes g ⟨[], []⟩ with
  | none => simp only [true_iff]; exact Or.inl ((lowerNodes_none g _).mp h0)
  | some ast0 =>
    have hno : ¬ ∃ p, p ∈ g ∧ ¬ IsChoice p.2 ∧ ¬ Supported none p.2 := by
      intro h
      rw [(lowerNodes_none g ⟨[], []⟩).mpr h] at h0
      cases h0
    obtain ⟨⟨N, hN, hNs, hN1, hN2⟩, ⟨E, hE, hEs, hE1, hE2⟩⟩ := lowerNodes_some g _ _ h0
    simp only [List.nil_append] at hN hE
    simp only []
    have key : extractEnumTraitsLoop (ast0.nodes.map (finishNode ast0.enums)) ast0.enums = none ↔
        ∃ p, p ∈ g ∧ IsChoice p.2 ∧ p.1 ≠ "Stmt".toList ∧
          ∃ v, Alternative p.2 v ∧ ¬ ∃ q, q ∈ g ∧ q.1 = v ∧ ¬ IsChoice q.2 := by
      rw [extractEnumTraitsLoop_none]
      have hnames : ∀ v, (∃ n, n ∈ ast0.nodes.map (finishNode ast0.enums) ∧ n.name = v) ↔
          ∃ q, q ∈ g ∧ q.1 = v ∧ ¬ IsChoice q.2 := by
        intro v
        constructor
        · rintro ⟨n, hn, rfl⟩
          obtain ⟨m, hm, rfl⟩ := List.mem_map.mp hn
          rw [finishNode_name]
          obtain ⟨_, r, hr, hc, _⟩ := hN1 m (hN ▸ hm)
          exact ⟨_, hr, rfl, hc⟩
        · rintro ⟨⟨name, r⟩, hq, rfl, hc⟩
          obtain ⟨n, hn, he, _⟩ := hN2 _ _ hq hc
          exact ⟨_, List.mem_map.mpr ⟨n, hN ▸ hn, rfl⟩, by rw [finishNode_name, he]⟩
      constructor
      · rintro ⟨e, he, h⟩
        rw [extractEnumTrait_none] at h
        obtain ⟨hs, v, hv, hx⟩ := h
        obtain ⟨r, hr, hc, hv'⟩ := hE1 e (hE ▸ he)
        exact ⟨_, hr, hc, hs, v, (hv' v).mp hv, by rw [← hnames]; exact hx⟩
      · rintro ⟨⟨name, r⟩, hp, hc, hs, v, hv, hx⟩
        obtain ⟨e, he, rfl, hv'⟩ := hE2 _ _ hp hc
        refine ⟨e, hE ▸ he, ?_⟩
        rw [extractEnumTrait_none]
        exact ⟨hs, v, (hv' v).mpr hv, by rw [hnames]; exact hx⟩
    have key2 := extractEnumTraits_none ⟨ast0.nodes.map (finishNode ast0.enums), ast0.enums⟩
    unfold finishNode at key key2
    rw [key2, key]
    constructor
    · exact Or.inr
    · rintro (h | h)
      · exact absurd h hno
      · exact h

/-- C64: the classes are the rules that are not choices, the choices keep their alternatives. -/
theorem lower_classes {g : Grammar} {ast : Ast} (h : lower g = some ast) :
    (∀ name, (∃ n, n ∈ ast.nodes ∧ n.name = name) ↔ ∃ r, (name, r) ∈ g ∧ ¬ IsChoice r) ∧
    (∀ e, e ∈ ast.enums → ∃ r, (e.name, r) ∈ g ∧ IsChoice r ∧ ∀ v, v ∈ e.variants ↔ Alternative r v) ∧
    (∀ name r, (name, r) ∈ g → IsChoice r → ∃ e, e ∈ ast.enums ∧ e.name = name) := by
  obtain ⟨N, E, L⟩ := lower_some h
  refine ⟨?_, ?_, ?_⟩
  · intro name
    rw [L.nodes]
    constructor
    · rintro ⟨n, hn, rfl⟩
      obtain ⟨m, hm, rfl⟩ := List.mem_map.mp hn
      rw [finishNode_name]
      obtain ⟨_, r, hr, hc, _⟩ := L.nFrom m hm
      exact ⟨r, hr, hc⟩
    · rintro ⟨r, hr, hc⟩
      obtain ⟨n, hn, he, _⟩ := L.nTo _ _ hr hc
      exact ⟨_, List.mem_map.mpr ⟨n, hn, rfl⟩, by rw [finishNode_name, he]⟩
  · intro e he
    have h1 : (e.name, e.variants) ∈ ast.enums.map (fun e => (e.name, e.variants)) :=
      List.mem_map.mpr ⟨e, he, rfl⟩
    rw [L.enums] at h1
    obtain ⟨e', he', hx⟩ := List.mem_map.mp h1
    obtain ⟨r, hr, hc, hv⟩ := L.eFrom e' he'
    simp only [Prod.mk.injEq] at hx
    rw [hx.1] at hr
    rw [hx.2] at hv
    exact ⟨r, hr, hc, hv⟩
  · intro name r hr hc
    obtain ⟨e, he, rfl, _⟩ := L.eTo _ _ hr hc
    have h1 : (e.name, e.variants) ∈ E.map (fun e => (e.name, e.variants)) :=
      List.mem_map.mpr ⟨e, he, rfl⟩
    rw [← L.enums] at h1
    obtain ⟨e', he', hx⟩ := List.mem_map.mp h1
    simp only [Prod.mk.injEq] at hx
    exact ⟨e', he', hx.1⟩

/-! ### C49, deduplication -/

/-- C49 (deduplication): every class keeps the first occurrence of each field, in order. -/
theorem deduplicate_keeps_first (ast : Ast) :
    (deduplicateFields ast).nodes.map Node.name = ast.nodes.map Node.name ∧
    (deduplicateFields ast).nodes.map Node.fields = ast.nodes.map (fun n => firstOccurrences n.fields) ∧
    (∀ n, n ∈ ast.nodes → (firstOccurrences n.fields).Nodup ∧
      List.Sublist (firstOccurrences n.fields) n.fields ∧ ∀ f, f ∈ firstOccurrences n.fields ↔ f ∈ n.fields) := by
  refine ⟨?_, ?_, ?_⟩
  · simp [deduplicateFields]
  · simp [deduplicateFields, dedup_eq]
  · intro n _
    rw [← dedup_eq]
    refine ⟨dedupLoop_nodup _ _ (by simp), ?_, ?_⟩
    · simpa using dedupLoop_sublist [] n.fields
    · intro f
      simpa using dedupLoop_mem [] n.fields f

/-! ### The enum pass -/

/-- `f` is the accessor of a choice that stands for the class `n` through an alternative. -/
def Merged (g : Grammar) (f : Field) (n : Text) : Prop :=
  ∃ t r v, (t, r) ∈ g ∧ IsChoice r ∧ Alternative r v ∧ Accepts g v n ∧
    f = .node (Stdx.toLowerSnakeCase t) t .optional

theorem Merged.accepts {g : Grammar} {f : Field} {n : Text} (h : Merged g f n) : Accepts g f.ty n := by
  obtain ⟨t, r, v, hm, hc, hv, ha, rfl⟩ := h
  exact .step t v n r hm hc hv ha

/-- The enum is a choice of the grammar. -/
def FromGrammar (g : Grammar) (e : Enum) : Prop :=
  ∃ r, (e.name, r) ∈ g ∧ IsChoice r ∧ ∀ v, v ∈ e.variants ↔ Alternative r v

theorem merged_step {g : Grammar} {e : Enum} (he : FromGrammar g e) {f : Field} {n : Text}
    (hv : f.ty ∈ e.variants) (h : Accepts g f.ty n) : Merged g (enumField e) n := by
  obtain ⟨r, hr, hc, hx⟩ := he
  exact ⟨_, r, _, hr, hc, (hx _).mp hv, h, rfl⟩

theorem covered_step {g : Grammar} {e : Enum} (he : FromGrammar g e) {fs : List Field} {f : Field}
    (h : ∃ f', f' ∈ fs ∧ (f' = f ∨ Merged g f' f.ty)) :
    ∃ f', f' ∈ extractEnumPure fs e ∧ (f' = f ∨ Merged g f' f.ty) := by
  obtain ⟨f', hf, h⟩ := h
  unfold extractEnumPure
  split
  · by_cases hv : variantField e f' = true
    · refine ⟨enumField e, by simp, Or.inr ?_⟩
      apply merged_step he ((variantField_iff e f').mp hv)
      rcases h with rfl | h
      · exact .refl _
      · exact h.accepts
    · exact ⟨f', by simp [hf, hv], h⟩
  · exact ⟨f', hf, h⟩

theorem covered_fold {g : Grammar} (E : List Enum) (hE : ∀ e, e ∈ E → FromGrammar g e) {fs : List Field} {f : Field}
    (h : ∃ f', f' ∈ fs ∧ (f' = f ∨ Merged g f' f.ty)) :
    ∃ f', f' ∈ E.foldl extractEnumPure fs ∧ (f' = f ∨ Merged g f' f.ty) := by
  induction E generalizing fs with
  | nil => exact h
  | cons e E ih =>
    rw [List.foldl_cons]
    exact ih (fun x hx => hE x (by simp [hx])) (covered_step (hE e (by simp)) h)

/-- Every field is a constituent or merges a constituent. -/
def Sound (g : Grammar) (r : Rule) (fs : List Field) : Prop :=
  ∀ f, f ∈ fs → ∃ c, Constituent none r c ∧ (f = c ∨ Merged g f c.ty)

theorem sound_step {g : Grammar} {r : Rule} {e : Enum} (he : FromGrammar g e) (hne : e.variants ≠ [])
    {fs : List Field} (h : Sound g r fs) : Sound g r (extractEnumPure fs e) := by
  unfold extractEnumPure
  split
  next hl =>
    intro f hf
    rcases List.mem_append.mp hf with hf | hf
    · exact h f (List.mem_filter.mp hf).1
    · rw [List.mem_singleton.mp hf]
      have hpos : 0 < e.variants.length := List.length_pos_iff.mpr hne
      rw [← hl] at hpos
      obtain ⟨x, hx⟩ := List.exists_mem_of_length_pos hpos
      rw [List.mem_filter, variantField_iff] at hx
      obtain ⟨c, hc, hx'⟩ := h x hx.1
      refine ⟨c, hc, Or.inr (merged_step he hx.2 ?_)⟩
      rcases hx' with rfl | hx'
      · exact .refl _
      · exact hx'.accepts
  · exact h

/-- A class that uses a choice does not use the alternatives of the choice beside it. -/
def Unmixed (g : Grammar) (r : Rule) : Prop :=
  ∀ t r', (t, r') ∈ g → IsChoice r' → ∀ c c' v, Constituent none r c → c.ty = t → Alternative r' v →
    Constituent none r c' → ¬ Accepts g v c'.ty

theorem nodup_fold {g : Grammar} {r : Rule} (hu : Unmixed g r) (orig : List Field)
    (horig : ∀ f, f ∈ orig → Constituent none r f) (done E : List Enum)
    (hn : ((done ++ E).map Enum.name).Nodup) (hE : ∀ e, e ∈ E → FromGrammar g e ∧ e.variants ≠ [])
    (fs : List Field) (hfs : fs.Nodup) (hs : Sound g r fs)
    (hfrom : ∀ f, f ∈ fs → f ∈ orig ∨ ∃ e, e ∈ done ∧ f = enumField e) :
    (E.foldl extractEnumPure fs).Nodup := by
  induction E generalizing done fs with
  | nil => exact hfs
  | cons e E ih =>
    rw [List.foldl_cons]
    obtain ⟨he, hne⟩ := hE e (by simp)
    have hstep := sound_step he hne hs
    apply ih (done ++ [e]) (by simpa using hn) (fun x hx => hE x (by simp [hx])) _ ?_ hstep ?_
    · unfold extractEnumPure
      split
      next hl =>
        rw [List.nodup_append]
        refine ⟨List.Nodup.sublist List.filter_sublist hfs, by simp, ?_⟩
        intro a ha b hb hab
        rw [List.mem_singleton] at hb
        subst hab hb
        have ha := (List.mem_filter.mp ha).1
        rcases hfrom _ ha with ho | ⟨e', he', hx⟩
        · obtain ⟨r', hr', hc', hv'⟩ := he
          have hpos : 0 < e.variants.length := List.length_pos_iff.mpr hne
          rw [← hl] at hpos
          obtain ⟨x, hx⟩ := List.exists_mem_of_length_pos hpos
          rw [List.mem_filter, variantField_iff] at hx
          obtain ⟨c, hc, hxc⟩ := hs x hx.1
          apply hu e.name r' hr' hc' (enumField e) c x.ty (horig _ ho) rfl ((hv' _).mp hx.2) hc
          rcases hxc with rfl | hxc
          · exact .refl _
          · exact hxc.accepts
        · have hname : e.name = e'.name := by
            have := congrArg Field.ty hx
            exact this
          rw [List.map_append, List.nodup_append] at hn
          exact hn.2.2 e'.name (List.mem_map.mpr ⟨e', he', rfl⟩) e.name (by simp) hname.symm
      · exact hfs
    · intro f hf
      unfold extractEnumPure at hf
      split at hf
      · rcases List.mem_append.mp hf with hf | hf
        · rcases hfrom f (List.mem_filter.mp hf).1 with h | ⟨e', he', h⟩
          · exact Or.inl h
          · exact Or.inr ⟨e', by simp [he'], h⟩
        · exact Or.inr ⟨e, by simp, List.mem_singleton.mp hf⟩
      · rcases hfrom f hf with h | ⟨e', he', h⟩
        · exact Or.inl h
        · exact Or.inr ⟨e', by simp [he'], h⟩

/-! ### The trait pass -/

theorem traits_sublist (trs : List (Text × List Text)) (n : Node) :
    List.Sublist (trs.foldl traitPure n).fields n.fields := by
  induction trs generalizing n with
  | nil => exact List.Sublist.refl _
  | cons tr trs ih =>
    rw [List.foldl_cons]
    refine (ih _).trans ?_
    unfold traitPure
    split
    · exact List.filter_sublist
    · exact List.Sublist.refl _

/-- The field is an accessor of the class, or a method of one of its traits. -/
def Reachable (n : Node) (f : Field) : Prop :=
  f ∈ n.fields ∨ ∃ tr, tr ∈ structTraits ∧ tr.1 ∈ n.traits ∧ f.methodName ∈ tr.2

theorem reachable_fold (trs : List (Text × List Text)) (ht : ∀ tr, tr ∈ trs → tr ∈ structTraits) (n : Node)
    (f : Field) (h : Reachable n f) : Reachable (trs.foldl traitPure n) f := by
  induction trs generalizing n with
  | nil => exact h
  | cons tr trs ih =>
    rw [List.foldl_cons]
    apply ih (fun x hx => ht x (by simp [hx]))
    unfold traitPure
    split
    · rcases h with h | ⟨x, hx, hm, hy⟩
      · by_cases hv : traitField tr f = true
        · exact Or.inr ⟨tr, ht tr (by simp), by simp, (traitField_iff tr f).mp hv⟩
        · exact Or.inl (by simp [h, hv])
      · exact Or.inr ⟨x, hx, by simp [hm], hy⟩
    · exact h

/-! ### The properties -/

theorem constituents_of_lower {r : Rule} {fs : List Field} (h : lowerRule [] none r = some fs) (f : Field) :
    f ∈ fs ↔ Constituent none r f := by
  have := lowerRule_good r [] none
  rw [h] at this
  obtain ⟨_, gs, e, hg⟩ := this
  simp only [List.nil_append] at e
  rw [e, hg f]

/-- C49, partial: if the names of the grammar are distinct, every choice has an alternative, and no class
uses a choice together with one of its alternatives, then no generated class has two equal fields.
Missing: classes that use a choice and its alternatives (`unique_fields_fails`), and equal accessor names
of different fields (`unique_names_fails`). -/
theorem unique_fields_partial {g : Grammar} {ast : Ast} (h : lower g = some ast)
    (hn : (g.map Prod.fst).Nodup) (hne : ∀ p, p ∈ g → IsChoice p.2 → ∃ v, Alternative p.2 v)
    (hu : ∀ p, p ∈ g → ¬ IsChoice p.2 → Unmixed g p.2) :
    ∀ n, n ∈ ast.nodes → n.fields.Nodup := by
  obtain ⟨N, E, L⟩ := lower_some h
  intro n hmem
  rw [L.nodes] at hmem
  obtain ⟨m, hm, rfl⟩ := List.mem_map.mp hmem
  obtain ⟨_, r, hr, hc, hl⟩ := L.nFrom m hm
  refine List.Nodup.sublist (traits_sublist _ _) ?_
  have horig : ∀ f, f ∈ dedupLoop [] m.fields → Constituent none r f := by
    intro f hf
    rw [dedupLoop_mem] at hf
    rcases hf with hf | hf
    · cases hf
    · exact (constituents_of_lower hl f).mp hf
  apply nodup_fold (hu _ hr hc) (dedupLoop [] m.fields) horig [] E
  · exact List.Nodup.sublist L.eNames hn
  · intro e he
    obtain ⟨r', hr', hc', hv'⟩ := L.eFrom e he
    refine ⟨⟨r', hr', hc', hv'⟩, ?_⟩
    obtain ⟨v, hv⟩ := hne _ hr' hc'
    intro hnil
    have := (hv' v).mpr hv
    rw [hnil] at this
    cases this
  · exact dedupLoop_nodup _ _ (by simp)
  · intro f hf
    exact ⟨f, horig f hf, Or.inl rfl⟩
  · intro f hf
    exact Or.inl hf

/-- C64, partial: every constituent of a class's rule is an accessor of the class, or was merged into the
accessor of a choice that stands for it; the accessor may have moved to a trait.  Missing: an accessor that
yields all the occurrences (`merge_loses_repetition`), and the traits themselves (`trait_loses_accessor`). -/
theorem constituents_covered_partial {g : Grammar} {ast : Ast} (h : lower g = some ast)
    (name : Text) (r : Rule) (hr : (name, r) ∈ g) (hc : ¬ IsChoice r) :
    ∃ n, n ∈ ast.nodes ∧ n.name = name ∧ ∀ c, Constituent none r c →
      ∃ f, (f = c ∨ Merged g f c.ty) ∧ Reachable n f := by
  obtain ⟨N, E, L⟩ := lower_some h
  obtain ⟨m, hm, he, hl⟩ := L.nTo _ _ hr hc
  refine ⟨finishNode E m, ?_, ?_, ?_⟩
  · rw [L.nodes]; exact List.mem_map.mpr ⟨m, hm, rfl⟩
  · rw [finishNode_name, he]
  · intro c hcon
    have h1 : c ∈ dedupLoop [] m.fields := by
      rw [dedupLoop_mem]
      exact Or.inr ((constituents_of_lower hl c).mpr hcon)
    obtain ⟨f, hf, hx⟩ := covered_fold (g := g) E L.eFrom ⟨c, h1, Or.inl rfl⟩
    exact ⟨f, hx, reachable_fold structTraits (fun _ h => h) _ f (Or.inl hf)⟩

/-- C64: no accessor is invented: if every choice has an alternative, every accessor of a class is a
constituent of its rule or merges one. -/
theorem accessors_from_constituents {g : Grammar} {ast : Ast} (h : lower g = some ast)
    (hne : ∀ p, p ∈ g → IsChoice p.2 → ∃ v, Alternative p.2 v) :
    ∀ n, n ∈ ast.nodes → ∃ r, (n.name, r) ∈ g ∧ ¬ IsChoice r ∧
      ∀ f, f ∈ n.fields → ∃ c, Constituent none r c ∧ (f = c ∨ Merged g f c.ty) := by
  obtain ⟨N, E, L⟩ := lower_some h
  intro n hmem
  rw [L.nodes] at hmem
  obtain ⟨m, hm, rfl⟩ := List.mem_map.mp hmem
  obtain ⟨_, r, hr, hc, hl⟩ := L.nFrom m hm
  rw [finishNode_name]
  refine ⟨r, hr, hc, ?_⟩
  have hE : ∀ e, e ∈ E → FromGrammar g e ∧ e.variants ≠ [] := by
    intro e he
    obtain ⟨r', hr', hc', hv'⟩ := L.eFrom e he
    refine ⟨⟨r', hr', hc', hv'⟩, ?_⟩
    obtain ⟨v, hv⟩ := hne _ hr' hc'
    intro hnil
    have := (hv' v).mpr hv
    rw [hnil] at this
    cases this
  have hfold : ∀ (E : List Enum), (∀ e, e ∈ E → FromGrammar g e ∧ e.variants ≠ []) → ∀ fs, Sound g r fs →
      Sound g r (E.foldl extractEnumPure fs) := by
    intro E
    induction E with
    | nil => intro _ fs h; exact h
    | cons e E ih =>
      intro hE fs h
      rw [List.foldl_cons]
      exact ih (fun x hx => hE x (by simp [hx])) _ (sound_step (hE e (by simp)).1 (hE e (by simp)).2 h)
  have h1 : Sound g r (dedupLoop [] m.fields) := by
    intro f hf
    rw [dedupLoop_mem] at hf
    rcases hf with hf | hf
    · cases hf
    · exact ⟨f, (constituents_of_lower hl f).mp hf, Or.inl rfl⟩
  intro f hf
  exact hfold E hE _ h1 f ((traits_sublist _ _).subset hf)

end Verif.AstGen
