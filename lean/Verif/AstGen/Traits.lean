import Verif.AstGen.Props

set_option autoImplicit false

/-!
C79: the traits of the generated classes and choices.
-/

namespace Verif.AstGen

/-! ### Choices -/

theorem variantTraits_some {nodes : List Node} {v : Text} {ts : List Text} (hn : (nodes.map Node.name).Nodup)
    (h : variantTraits nodes v = some ts) (t : Text) : t ∈ ts ↔ ∃ n, n ∈ nodes ∧ n.name = v ∧ t ∈ n.traits := by
  unfold variantTraits at h
  split at h
  · cases h
  · rename_i n hf
    cases h
    have h1 : n.name = v := by simpa using List.find?_some hf
    have h2 := List.mem_of_find?_eq_some hf
    constructor
    · intro ht; exact ⟨n, h2, h1, ht⟩
    · rintro ⟨n', h3, h4, ht⟩
      suffices e : n' = n by rw [← e]; exact ht
      have hname : n'.name = n.name := by rw [h4, h1]
      clear hf h1 h4 ht
      induction nodes with
      | nil => cases h2
      | cons a nodes ih =>
        simp only [List.map_cons, List.nodup_cons, List.mem_map, not_exists, not_and] at hn
        rcases List.mem_cons.1 h2 with h5 | h5
        · rcases List.mem_cons.1 h3 with h6 | h6
          · rw [h5, h6]
          · exact absurd (hname.trans (congrArg Node.name h5)) (hn.1 n' h6)
        · rcases List.mem_cons.1 h3 with h6 | h6
          · exact absurd (hname.symm.trans (congrArg Node.name h6)) (hn.1 n h5)
          · exact ih hn.2 h5 h6

theorem intersectTraits_some {nodes : List Node} (hn : (nodes.map Node.name).Nodup) {vs acc ts : List Text}
    (h : intersectTraits nodes vs acc = some ts) (t : Text) :
    t ∈ ts ↔ t ∈ acc ∧ ∀ v, v ∈ vs → ∃ n, n ∈ nodes ∧ n.name = v ∧ t ∈ n.traits := by
  induction vs generalizing acc with
  | nil => simp only [intersectTraits, Option.some.injEq] at h; subst h; simp
  | cons v vs ih =>
    simp only [intersectTraits] at h
    split at h
    · cases h
    · rename_i ts' hv
      rw [ih h, List.mem_filter, List.contains_iff_mem, variantTraits_some hn hv]
      simp only [List.mem_cons, forall_eq_or_imp, and_assoc]

theorem extractEnumTraitsLoop_mem {nodes : List Node} {es es' : List Enum}
    (h : extractEnumTraitsLoop nodes es = some es') (e : Enum) (he : e ∈ es') :
    ∃ e0, e0 ∈ es ∧ extractEnumTrait nodes e0 = some e := by
  induction es generalizing es' with
  | nil => simp only [extractEnumTraitsLoop, Option.some.injEq] at h; subst h; cases he
  | cons a es ih =>
    simp only [extractEnumTraitsLoop] at h
    split at h
    · cases h
    · rename_i a' ha
      split at h
      · cases h
      · rename_i es1 hes
        cases h
        rcases List.mem_cons.1 he with rfl | he
        · exact ⟨a, by simp, ha⟩
        · obtain ⟨e0, h0, h1⟩ := ih hes he
          exact ⟨e0, by simp [h0], h1⟩

/-- **C79, choices**: if the names of the grammar are distinct, a generated choice has a trait exactly if
each of its alternatives has it.  (The choice `Stmt` is left out by the generator.) -/
theorem choice_traits {g : Grammar} {ast : Ast} (h : lower g = some ast) (hn : (g.map Prod.fst).Nodup)
    (e : Enum) (he : e ∈ ast.enums) (hs : e.name ≠ "Stmt".toList) (hv : e.variants ≠ []) (t : Text) :
    t ∈ e.traits ↔ ∀ v, v ∈ e.variants → ∃ n, n ∈ ast.nodes ∧ n.name = v ∧ t ∈ n.traits := by
  obtain ⟨N, E, L⟩ := lower_some h
  have hnodes : (ast.nodes.map Node.name).Nodup := by
    have : ast.nodes.map Node.name = N.map Node.name := by
      rw [L.nodes, List.map_map]
      exact List.map_congr_left fun n _ => finishNode_name E n
    rw [this]
    exact List.Nodup.sublist L.nNames hn
  have hpass : ∃ es, extractEnumTraitsLoop ast.nodes es = some ast.enums := by
    rw [lower_eq] at h
    split at h
    · cases h
    · simp only [extractEnumTraits] at h
      split at h
      · cases h
      · rename_i es hes
        cases h
        exact ⟨_, hes⟩
  obtain ⟨es, hes⟩ := hpass
  obtain ⟨e0, _, h1⟩ := extractEnumTraitsLoop_mem hes e he
  obtain ⟨h2, h3⟩ := extractEnumTrait_some h1
  unfold extractEnumTrait at h1
  rw [if_neg (by rw [← h2]; exact hs)] at h1
  split at h1
  · rename_i hnil; rw [h3] at hv; exact absurd hnil hv
  · rename_i v vs hvs
    split at h1
    · cases h1
    · rename_i ts hts
      split at h1
      · cases h1
      · rename_i ts' hts'
        cases h1
        simp only
        rw [intersectTraits_some hnodes hts', variantTraits_some hnodes hts, hvs]
        simp only [List.mem_cons, forall_eq_or_imp]

/-! ### Classes -/

/-- The trait has the methods of a row, and no two rows share a method or a name. -/
theorem structTraits_disjoint : structTraits.Pairwise fun a b => a.1 ≠ b.1 ∧ ∀ m, m ∈ a.2 → m ∉ b.2 := by
  decide +kernel

theorem structTraits_nodup : ∀ tr, tr ∈ structTraits → tr.2.Nodup := by decide +kernel

/-- Distinct elements of a list that contains them all are as many as it has. -/
theorem count_of_all {l : List Field} {ms : List Text} (hms : ms.Nodup) (hl : (l.map Field.methodName).Nodup)
    (hall : ∀ m, m ∈ ms → m ∈ l.map Field.methodName) (tr : Text × List Text) (htr : tr.2 = ms) :
    (l.filter (traitField tr)).length = ms.length := by
  have e : (l.filter (traitField tr)).map Field.methodName = (l.map Field.methodName).filter fun m => decide (m ∈ ms) := by
    rw [List.filter_map]
    congr 1
    apply List.filter_congr
    intro f _
    have := traitField_iff tr f
    rw [htr] at this
    simp only [Function.comp]
    by_cases hf : f.methodName ∈ ms
    · rw [this.2 hf]; simp [hf]
    · have : traitField tr f = false := by
        cases hx : traitField tr f with
        | false => rfl
        | true => exact absurd (this.1 hx) hf
      rw [this]; simp [hf]
  have hlen : (l.filter (traitField tr)).length = ((l.map Field.methodName).filter fun m => decide (m ∈ ms)).length := by
    rw [← e, List.length_map]
  rw [hlen]
  apply List.Perm.length_eq
  rw [List.perm_ext_iff_of_nodup (List.Nodup.sublist List.filter_sublist hl) hms]
  intro m
  simp only [List.mem_filter, decide_eq_true_eq]
  exact ⟨fun h => h.2, fun h => ⟨hall m h, h⟩⟩

theorem traitPure_traits (n : Node) (tr : Text × List Text) :
    (traitPure n tr).traits = n.traits ∨ (traitPure n tr).traits = n.traits ++ [tr.1] := by
  unfold traitPure
  split
  · exact Or.inr rfl
  · exact Or.inl rfl

theorem fold_traits_mem (trs : List (Text × List Text)) (n : Node) (t : Text)
    (h : t ∈ (trs.foldl traitPure n).traits) : t ∈ n.traits ∨ ∃ tr, tr ∈ trs ∧ tr.1 = t := by
  induction trs generalizing n with
  | nil => exact Or.inl h
  | cons tr trs ih =>
    rw [List.foldl_cons] at h
    rcases ih _ h with h | ⟨x, hx, e⟩
    · rcases traitPure_traits n tr with e | e
      · rw [e] at h; exact Or.inl h
      · rw [e] at h
        rcases List.mem_append.1 h with h | h
        · exact Or.inl h
        · exact Or.inr ⟨tr, by simp, (List.mem_singleton.1 h).symm⟩
    · exact Or.inr ⟨x, by simp [hx], e⟩

theorem fold_traits_keep (trs : List (Text × List Text)) (n : Node) (t : Text) (h : t ∈ n.traits) :
    t ∈ (trs.foldl traitPure n).traits := by
  induction trs generalizing n with
  | nil => exact h
  | cons tr trs ih =>
    rw [List.foldl_cons]
    apply ih
    rcases traitPure_traits n tr with e | e <;> rw [e]
    · exact h
    · exact List.mem_append_left _ h

/-- Passes for other traits leave the fields of a trait alone. -/
theorem fold_fields_keep (trs : List (Text × List Text)) (n : Node) (tr : Text × List Text)
    (hd : ∀ x, x ∈ trs → ∀ m, m ∈ tr.2 → m ∉ x.2) :
    (trs.foldl traitPure n).fields.filter (traitField tr) = n.fields.filter (traitField tr) := by
  induction trs generalizing n with
  | nil => rfl
  | cons x trs ih =>
    rw [List.foldl_cons, ih _ fun y hy => hd y (by simp [hy])]
    unfold traitPure
    split
    · rw [List.filter_filter]
      apply List.filter_congr
      intro f _
      cases hx : traitField tr f with
      | false => simp
      | true =>
        have : traitField x f = false := by
          cases hy : traitField x f with
          | false => rfl
          | true => exact absurd ((traitField_iff x f).1 hy) (hd x (by simp) _ ((traitField_iff tr f).1 hx))
        simp [this]
    · rfl

/-- What the passes decide for one trait. -/
theorem fold_decides (trs : List (Text × List Text)) (n : Node) (ht : n.traits = [])
    (hd : trs.Pairwise fun a b => a.1 ≠ b.1 ∧ ∀ m, m ∈ a.2 → m ∉ b.2) (tr : Text × List Text) (hm : tr ∈ trs) :
    (tr.1 ∈ (trs.foldl traitPure n).traits ↔ (n.fields.filter (traitField tr)).length = tr.2.length) ∧
    (tr.1 ∈ (trs.foldl traitPure n).traits → (trs.foldl traitPure n).fields.filter (traitField tr) = []) ∧
    (tr.1 ∉ (trs.foldl traitPure n).traits →
      (trs.foldl traitPure n).fields.filter (traitField tr) = n.fields.filter (traitField tr)) := by
  have gen : ∀ (trs : List (Text × List Text)) (n : Node), tr.1 ∉ n.traits → tr ∈ trs →
      (trs.Pairwise fun a b => a.1 ≠ b.1 ∧ ∀ m, m ∈ a.2 → m ∉ b.2) →
      (tr.1 ∈ (trs.foldl traitPure n).traits ↔ (n.fields.filter (traitField tr)).length = tr.2.length) ∧
      (tr.1 ∈ (trs.foldl traitPure n).traits → (trs.foldl traitPure n).fields.filter (traitField tr) = []) ∧
      (tr.1 ∉ (trs.foldl traitPure n).traits →
        (trs.foldl traitPure n).fields.filter (traitField tr) = n.fields.filter (traitField tr)) := by
    intro trs
    induction trs with
    | nil => intro n _ h; cases h
    | cons x trs ih =>
      intro n hnot hmem hpw
      rw [List.pairwise_cons] at hpw
      rw [List.foldl_cons]
      rcases List.mem_cons.1 hmem with rfl | hmem
      · have hkeep := fold_fields_keep trs (traitPure n tr) tr fun y hy => (hpw.1 y hy).2
        rw [hkeep]
        unfold traitPure
        by_cases hc : (n.fields.filter (traitField tr)).length = tr.2.length
        · simp only [hc, if_true, iff_true]
          have hyes := fold_traits_keep trs { n with traits := n.traits ++ [tr.1], fields := n.fields.filter fun f => !traitField tr f } tr.1 (by simp)
          refine ⟨hyes, fun _ => ?_, fun h => absurd hyes h⟩
          rw [List.filter_filter]
          rw [List.filter_eq_nil_iff]
          intro f _
          cases traitField tr f <;> simp
        · simp only [hc, if_false, iff_false]
          have hno : tr.1 ∉ (trs.foldl traitPure n).traits := by
            intro h
            rcases fold_traits_mem _ _ _ h with h | ⟨y, hy, e⟩
            · exact hnot h
            · exact (hpw.1 y hy).1 e.symm
          exact ⟨hno, fun h => absurd h hno, fun _ => trivial⟩
      · have hx := hpw.1 tr hmem
        have h1 : tr.1 ∉ (traitPure n x).traits := by
          rcases traitPure_traits n x with e | e <;> rw [e]
          · exact hnot
          · intro h
            rcases List.mem_append.1 h with h | h
            · exact hnot h
            · exact hx.1 (List.mem_singleton.1 h).symm
        have h2 := fold_fields_keep [x] n tr (by
          intro y hy m hmt hmy
          rw [List.mem_singleton] at hy
          subst hy
          exact hx.2 m hmy hmt)
        simp only [List.foldl_cons, List.foldl_nil] at h2
        have := ih (traitPure n x) h1 hmem hpw.2
        rw [h2] at this
        exact this
  exact gen trs n (by rw [ht]; simp) hm hd

/-- A list without repetitions that is contained in another of the same length contains it. -/
theorem all_of_count {l : List Text} : ∀ {ms : List Text}, l.Nodup → (∀ x, x ∈ l → x ∈ ms) →
    l.length = ms.length → ∀ m, m ∈ ms → m ∈ l := by
  induction l with
  | nil => intro ms _ _ hl m hm; cases ms with
    | nil => exact hm
    | cons => cases hl
  | cons a l ih =>
    intro ms hnd hsub hl m hm
    rw [List.nodup_cons] at hnd
    have ha := hsub a (by simp)
    have hlen : l.length = (ms.erase a).length := by
      rw [List.length_erase_of_mem ha, ← hl]; simp
    by_cases hma : m = a
    · simp [hma]
    · have : m ∈ ms.erase a := (List.mem_erase_of_ne hma).2 hm
      exact List.mem_cons_of_mem _ (ih hnd.2 (fun x hx => (List.mem_erase_of_ne (fun e : x = a => hnd.1 (by rw [← e]; exact hx))).2
        (hsub x (by simp [hx]))) hlen m this)

theorem structTraits_owner : structTraits = ownerTraits := by decide +kernel

theorem structTraits_nonempty : ∀ tr, tr ∈ structTraits → tr.2 ≠ [] := by decide +kernel

/-- **C79, classes**: an accessor that a trait of the class provides is not generated a second time; and
if no two accessors of the class have the same name, a trait the class could provide by its own accessors
has been given to it: of a trait that the class does not have, some method is missing. -/
theorem class_traits {g : Grammar} {ast : Ast} (h : lower g = some ast) (n : Node) (hmem : n ∈ ast.nodes)
    (tr : Text × List Text) (htr : tr ∈ ownerTraits) :
    (tr.1 ∈ n.traits → ∀ f, f ∈ n.fields → f.methodName ∉ tr.2) ∧
    (tr.1 ∉ n.traits → (n.fields.map Field.methodName).Nodup →
      ∃ m, m ∈ tr.2 ∧ m ∉ n.fields.map Field.methodName) := by
  rw [← structTraits_owner] at htr
  obtain ⟨N, E, L⟩ := lower_some h
  rw [L.nodes] at hmem
  obtain ⟨m, hm, rfl⟩ := List.mem_map.mp hmem
  have ht : (enumsPure E { m with fields := dedupLoop [] m.fields }).traits = [] := (L.nFrom m hm).1
  obtain ⟨d1, d2, d3⟩ := fold_decides structTraits (enumsPure E { m with fields := dedupLoop [] m.fields }) ht
    structTraits_disjoint tr htr
  change (tr.1 ∈ (finishNode E m).traits ↔ _) at d1
  change (tr.1 ∈ (finishNode E m).traits → (finishNode E m).fields.filter (traitField tr) = []) at d2
  change (tr.1 ∉ (finishNode E m).traits → (finishNode E m).fields.filter (traitField tr) = _) at d3
  constructor
  · intro hin f hf hbad
    have : f ∈ (finishNode E m).fields.filter (traitField tr) :=
      List.mem_filter.2 ⟨hf, (traitField_iff tr f).2 hbad⟩
    rw [d2 hin] at this
    cases this
  · intro hno hnd
    apply Classical.byContradiction
    intro hall
    apply hno
    rw [d1, ← d3 hno]
    refine count_of_all (structTraits_nodup tr htr) hnd (fun x hx => ?_) tr rfl
    apply Classical.byContradiction
    intro hx'
    exact hall ⟨x, hx, hx'⟩

theorem fold_unmerged (E : List Enum) (fs : List Field) (h : ∀ e, e ∈ E → e.variants ≠ [] ∧ ∀ f, f ∈ fs → f.ty ∉ e.variants) :
    E.foldl extractEnumPure fs = fs := by
  induction E with
  | nil => rfl
  | cons e E ih =>
    rw [List.foldl_cons]
    have h1 : extractEnumPure fs e = fs := by
      unfold extractEnumPure
      have : fs.filter (variantField e) = [] := by
        rw [List.filter_eq_nil_iff]
        intro f hf hv
        exact (h e (by simp)).2 f hf ((variantField_iff e f).1 hv)
      rw [this, if_neg]
      intro hl
      exact (h e (by simp)).1 (List.length_eq_zero_iff.1 hl.symm)
    rw [h1]
    exact ih fun x hx => h x (by simp [hx])

theorem nodup_map_of_inj {fs : List Field} (hn : fs.Nodup)
    (hi : ∀ f, f ∈ fs → ∀ f', f' ∈ fs → f.methodName = f'.methodName → f = f') :
    (fs.map Field.methodName).Nodup := by
  induction fs with
  | nil => simp
  | cons f fs ih =>
    rw [List.nodup_cons] at hn
    rw [List.map_cons, List.nodup_cons]
    refine ⟨?_, ih hn.2 fun a ha b hb => hi a (by simp [ha]) b (by simp [hb])⟩
    intro hm
    obtain ⟨x, hx, e⟩ := List.mem_map.1 hm
    have := hi x (by simp [hx]) f (by simp) e
    exact hn.1 (this ▸ hx)

/-- **C79, classes**, partial: a class has only traits of the table, and a trait comes with all its methods:
each is the accessor of a constituent of the class's rule.  Missing: rules in which two different
constituents have accessors of the same name (`trait_without_method`), and rules that mention an alternative
of a choice. -/
theorem class_traits_sound_partial {g : Grammar} {ast : Ast} (h : lower g = some ast)
    (hne : ∀ p, p ∈ g → IsChoice p.2 → ∃ v, Alternative p.2 v) (n : Node) (hmem : n ∈ ast.nodes)
    (t : Text) (ht : t ∈ n.traits) :
    ∃ ms r, (t, ms) ∈ ownerTraits ∧ (n.name, r) ∈ g ∧ ¬ IsChoice r ∧
      ((∀ c c', Constituent none r c → Constituent none r c' → c.methodName = c'.methodName → c = c') →
       (∀ c, Constituent none r c → ∀ p, p ∈ g → IsChoice p.2 → ¬ Alternative p.2 c.ty) →
       ∀ m, m ∈ ms → ∃ c, Constituent none r c ∧ c.methodName = m) := by
  obtain ⟨N, E, L⟩ := lower_some h
  rw [L.nodes] at hmem
  obtain ⟨m, hm, rfl⟩ := List.mem_map.mp hmem
  obtain ⟨hnil, r, hr, hc, hl⟩ := L.nFrom m hm
  have hnil' : (enumsPure E { m with fields := dedupLoop [] m.fields }).traits = [] := hnil
  have ht' : t ∈ (structTraits.foldl traitPure (enumsPure E { m with fields := dedupLoop [] m.fields })).traits := ht
  rcases fold_traits_mem _ _ _ ht' with hx | ⟨tr, htr, rfl⟩
  · rw [hnil'] at hx; cases hx
  refine ⟨tr.2, r, structTraits_owner ▸ htr, by rw [finishNode_name]; exact hr, hc, ?_⟩
  intro hinj hun x hx
  have d1 := ((fold_decides structTraits _ hnil' structTraits_disjoint tr htr).1).1 ht'
  have hcon : ∀ f, f ∈ dedupLoop [] m.fields → Constituent none r f := by
    intro f hf
    rw [dedupLoop_mem] at hf
    rcases hf with hf | hf
    · cases hf
    · exact (constituents_of_lower hl f).mp hf
  have hfields : (enumsPure E { m with fields := dedupLoop [] m.fields }).fields = dedupLoop [] m.fields := by
    apply fold_unmerged
    intro e he
    obtain ⟨r', hr', hc', hv'⟩ := L.eFrom e he
    constructor
    · obtain ⟨v, hv⟩ := hne _ hr' hc'
      intro hnil
      have := (hv' v).mpr hv
      rw [hnil] at this
      cases this
    · intro f hf hv
      exact hun f (hcon f hf) _ hr' hc' ((hv' f.ty).1 hv)
  rw [hfields] at d1
  have hnd : ((dedupLoop [] m.fields).map Field.methodName).Nodup :=
    nodup_map_of_inj (dedupLoop_nodup _ _ (by simp)) fun f hf f' hf' => hinj f f' (hcon f hf) (hcon f' hf')
  have hall := all_of_count (l := ((dedupLoop [] m.fields).filter (traitField tr)).map Field.methodName) (ms := tr.2)
    (List.Nodup.sublist (List.filter_sublist.map _) hnd)
    (by
      intro y hy
      obtain ⟨f, hf, rfl⟩ := List.mem_map.1 hy
      exact (traitField_iff tr f).1 (List.mem_filter.1 hf).2)
    (by rw [List.length_map]; exact d1) x hx
  obtain ⟨f, hf, rfl⟩ := List.mem_map.1 hall
  exact ⟨f, hcon f (List.mem_filter.1 hf).1, rfl⟩

/-! ### Where the generator disagrees, and witnesses -/

private def nd (s : String) : Rule := .node s.toList
private def tk (s : String) : Rule := .token s.toList
private def lb (s : String) (r : Rule) : Rule := .labeled s.toList r

/-- C79 does not hold for all grammars: only the number of accessors is compared with the number of methods,
so that a class with two labels and no body is given the trait of loops. -/
theorem trait_without_method :
    (lower [("Foo".toList, .seq [lb "label" (nd "A"), lb "label" (nd "B")]), ("A".toList, tk "a"), ("B".toList, tk "b")]).map
      (fun a => a.nodes.take 1) = some [⟨"Foo".toList, ["LoopBodyOwner".toList], []⟩] := by decide +kernel

/-- A grammar with a class that has a trait, one that has two, and a choice of them. -/
def traitGrammar : Grammar :=
  [("Item".toList, .alt [nd "Fun", nd "Struct"]), ("Fun".toList, .seq [nd "Name", nd "Visibility", tk ";"]),
   ("Struct".toList, .seq [nd "Name", tk "{", tk "}"]), ("Name".toList, tk "ident"), ("Visibility".toList, tk "public")]

/-- The choice has the trait that both classes have. -/
example : (lower traitGrammar).map (fun a => (a.nodes.map fun n => n.traits.map String.ofList,
      a.enums.map fun e => (String.ofList e.name, e.traits.map String.ofList))) =
    some ([["NameOwner", "VisibilityOwner"], ["NameOwner"], [], []], [("Item", ["NameOwner"])]) := by decide +kernel

example : ∃ ast, lower traitGrammar = some ast ∧ (traitGrammar.map Prod.fst).Nodup ∧
    (ast.enums.any fun e => decide (e.name ≠ "Stmt".toList ∧ e.variants ≠ [])) = true := by
  cases h : lower traitGrammar with
  | none => have : (lower traitGrammar).isSome = true := by decide +kernel
            rw [h] at this; cases this
  | some ast =>
    refine ⟨ast, rfl, by decide +kernel, ?_⟩
    have : (lower traitGrammar).all (fun ast => ast.enums.any fun e =>
      decide (e.name ≠ "Stmt".toList ∧ e.variants ≠ [])) = true := by decide +kernel
    rw [h] at this
    exact this

end Verif.AstGen
