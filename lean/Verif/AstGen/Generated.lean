import Verif.AstGen.GenModel
import Verif.AstGen.Samples
import Verif.Stdx.Case

set_option autoImplicit false

/-!
C95: what the generated classes do.
-/

namespace Verif.AstGen

/-! ### Specification -/

/-- The node is what the class `ty` of the grammar stands for: its kind is the one of the class, in upper snake case,
or, if `ty` is a choice, the one of an alternative. -/
def IsA (g : Grammar) (ty : Text) (x : Syn) : Prop :=
  ∃ r, (ty, r) ∈ g ∧
    ((¬ IsChoice r ∧ x.kind = Stdx.toUpperSnakeCase ty) ∨
     (IsChoice r ∧ ∃ v, Alternative r v ∧ x.kind = Stdx.toUpperSnakeCase v))

/-! ### Lookup -/

theorem findSome_map {α β γ : Type} (f : α → β) (g : β → Option γ) (l : List α) :
    (l.map f).findSome? g = l.findSome? (fun a => g (f a)) := by
  induction l with
  | nil => rfl
  | cons a l ih => rw [List.map_cons, List.findSome?_cons, List.findSome?_cons, ih]

theorem findSome_none {α β : Type} (g : α → Option β) (l : List α) (h : ∀ a ∈ l, g a = none) : l.findSome? g = none :=
  List.findSome?_eq_none_iff.2 h

/-- Among things with different names the one that is asked for is found. -/
theorem findSome_name {α β : Type} (name : α → Text) (f : α → β) (l : List α) (hn : (l.map name).Nodup) (a : α)
    (ha : a ∈ l) : l.findSome? (fun x => if name x = name a then some (f x) else none) = some (f a) := by
  induction l with
  | nil => cases ha
  | cons x l ih =>
    simp only [List.map_cons, List.nodup_cons] at hn
    rw [List.findSome?_cons]
    rcases List.mem_cons.1 ha with rfl | ha
    · simp
    · have : name x ≠ name a := fun e => hn.1 (by rw [e]; exact List.mem_map_of_mem ha)
      simp only [if_neg this]
      exact ih hn.2 ha

theorem findSome_other {α β : Type} (name : α → Text) (f : α → β) (l : List α) (t : Text) (h : t ∉ l.map name) :
    l.findSome? (fun x => if name x = t then some (f x) else none) = none := by
  apply findSome_none
  intro a ha
  rw [if_neg]
  rintro rfl
  exact h (List.mem_map_of_mem ha)

theorem implFor_classes (ast : Ast) (ty : Text) :
    (generateNodes ast).findSome? (implFor ty) =
      (ast.nodes.findSome? fun n => if n.name = ty then some (.class (kindOf n.name)) else none).or
        (ast.enums.findSome? fun e => if e.name = ty ∧ e.name ≠ "Stmt".toList then
          some (.choice (e.variants.map fun v => (kindOf v, v))) else none) := by
  unfold generateNodes
  simp only [List.findSome?_append, findSome_map]
  have h1 : ast.nodes.findSome? (fun n => implFor ty (.struct n.name (n.fields.map accessor))) = none :=
    findSome_none _ _ fun _ _ => rfl
  have h2 : ast.enums.findSome? (fun e => implFor ty (.enum e.name e.variants e.traits)) = none :=
    findSome_none _ _ fun _ _ => rfl
  have h3 : ast.enums.findSome? (fun a => implFor ty (Item.display (Enum.name a))) = none :=
    findSome_none _ _ fun _ _ => rfl
  have h4 : ast.nodes.findSome? (fun a => implFor ty (Item.display (Node.name a))) = none :=
    findSome_none _ _ fun _ _ => rfl
  have h5 : (ast.enums.flatMap choiceItems).findSome? (implFor ty) =
      ast.enums.findSome? fun e => if e.name = ty ∧ e.name ≠ "Stmt".toList then
          some (.choice (e.variants.map fun v => (kindOf v, v))) else none := by
    induction ast.enums with
    | nil => rfl
    | cons e es ih =>
      rw [List.flatMap_cons, List.findSome?_append, ih, List.findSome?_cons]
      unfold choiceItems
      have h0 : e.variants.findSome? (fun v => implFor ty (Item.from v e.name)) = none :=
        findSome_none _ _ fun _ _ => rfl
      rw [List.findSome?_append, findSome_map, h0, Option.none_or]
      by_cases hs : e.name = "Stmt".toList
      · rw [if_pos hs, if_neg (fun h => h.2 hs)]
        rfl
      · rw [if_neg hs]
        by_cases ht : e.name = ty
        · rw [if_pos ⟨ht, hs⟩]
          simp only [List.findSome?_cons, implFor, if_pos ht, Option.some_or]
        · rw [if_neg (fun h => ht h.1)]
          simp only [List.findSome?_cons, List.findSome?_nil, implFor, if_neg ht, Option.none_or]
  rw [h1, h2, h3, h4, h5]
  simp only [Option.none_or, Option.or_none, implFor]

/-- The names of the generated classes and choices. -/
theorem lower_names {g : Grammar} {ast : Ast} (h : lower g = some ast) (hn : (g.map Prod.fst).Nodup) :
    (ast.nodes.map Node.name).Nodup ∧ (ast.enums.map Enum.name).Nodup := by
  obtain ⟨N, E, L⟩ := lower_some h
  constructor
  · have : ast.nodes.map Node.name = N.map Node.name := by
      rw [L.nodes, List.map_map]
      exact List.map_congr_left fun n _ => finishNode_name E n
    rw [this]
    exact List.Nodup.sublist L.nNames hn
  · have : ast.enums.map Enum.name = E.map Enum.name := by
      have := congrArg (List.map Prod.fst) L.enums
      simpa [List.map_map, Function.comp_def] using this
    rw [this]
    exact List.Nodup.sublist L.eNames hn

theorem rule_unique {g : Grammar} (hn : (g.map Prod.fst).Nodup) {t : Text} {r r' : Rule} (h : (t, r) ∈ g)
    (h' : (t, r') ∈ g) : r = r' := by
  induction g with
  | nil => cases h
  | cons p g ih =>
    simp only [List.map_cons, List.nodup_cons] at hn
    rcases List.mem_cons.1 h with e | h1 <;> rcases List.mem_cons.1 h' with e' | h1'
    · rw [← e] at e'; cases e'; rfl
    · rw [← e] at hn; exact absurd (List.mem_map_of_mem (f := Prod.fst) h1') hn.1
    · rw [← e'] at hn; exact absurd (List.mem_map_of_mem (f := Prod.fst) h1) hn.1
    · exact ih hn.2 h1 h1'

/-- The implementation for a class or a choice. -/
theorem impl_of {g : Grammar} {ast : Ast} (h : lower g = some ast) (hn : (g.map Prod.fst).Nodup) {ty : Text} {r : Rule}
    (hm : (ty, r) ∈ g) (hs : IsChoice r → ty ≠ "Stmt".toList) :
    (¬ IsChoice r ∧ (generateNodes ast).findSome? (implFor ty) = some (.class (kindOf ty))) ∨
    (IsChoice r ∧ ∃ vs : List Text, (∀ v, v ∈ vs ↔ Alternative r v) ∧
      (generateNodes ast).findSome? (implFor ty) = some (.choice (vs.map fun v => (kindOf v, v)))) := by
  obtain ⟨c1, c2, c3⟩ := lower_classes h
  obtain ⟨n1, n2⟩ := lower_names h hn
  by_cases hc : IsChoice r
  · right
    obtain ⟨e, he, rfl⟩ := c3 _ _ hm hc
    obtain ⟨r', hr', _, hv⟩ := c2 e he
    cases rule_unique hn hm hr'
    refine ⟨hc, e.variants, hv, ?_⟩
    rw [implFor_classes, findSome_other Node.name (fun n => Impl.class (kindOf n.name)), Option.none_or]
    · have hcond : ∀ x : Enum, (if x.name = e.name ∧ x.name ≠ "Stmt".toList then
          some (Impl.choice (x.variants.map fun v => (kindOf v, v))) else none) =
          if x.name = e.name then some (Impl.choice (x.variants.map fun v => (kindOf v, v))) else none := by
        intro x
        by_cases hx : x.name = e.name
        · have : x.name ≠ "Stmt".toList := by rw [hx]; exact hs hc
          rw [if_pos ⟨hx, this⟩, if_pos hx]
        · rw [if_neg (fun h => hx h.1), if_neg hx]
      simp only [hcond]
      exact findSome_name Enum.name (fun x => Impl.choice (x.variants.map fun v => (kindOf v, v))) _ n2 e he
    · intro hin
      obtain ⟨n, hn', e'⟩ := List.mem_map.1 hin
      obtain ⟨r', hr', hnc⟩ := (c1 e.name).1 ⟨n, hn', e'⟩
      cases rule_unique hn hm hr'
      exact hnc hc
  · left
    obtain ⟨n, hn', rfl⟩ := (c1 ty).2 ⟨r, hm, hc⟩
    refine ⟨hc, ?_⟩
    rw [implFor_classes, findSome_name Node.name (fun n => Impl.class (kindOf n.name)) _ n1 n hn']
    rfl

/-! ### C95 -/

/-- **C95**: a node can be cast to a generated class exactly if it is what the class stands for, `can_cast` says so,
and the result is that node. -/
theorem cast_iff {g : Grammar} {ast : Ast} (h : lower g = some ast) (hn : (g.map Prod.fst).Nodup) {ty : Text} {r : Rule}
    (hm : (ty, r) ∈ g) (hs : IsChoice r → ty ≠ "Stmt".toList) (x : Syn) :
    ∃ o, cast (generateNodes ast) ty x = some o ∧ (o.isSome = true ↔ IsA g ty x) ∧
      canCast (generateNodes ast) ty x.kind = some o.isSome ∧ ∀ v, o = some v → v.syn = x := by
  unfold cast canCast
  rcases impl_of h hn hm hs with ⟨hc, hi⟩ | ⟨hc, vs, hv, hi⟩
  · rw [hi]
    refine ⟨_, rfl, ?_, ?_, ?_⟩
    · simp only [Impl.cast]
      constructor
      · intro ho
        split at ho
        · rename_i hk; exact ⟨r, hm, .inl ⟨hc, eq_of_beq hk⟩⟩
        · cases ho
      · rintro ⟨r', hr', h'⟩
        cases rule_unique hn hm hr'
        rcases h' with ⟨_, hk⟩ | ⟨hc', _⟩
        · rw [if_pos (by rw [hk]; exact beq_self_eq_true _)]; rfl
        · exact absurd hc' hc
    · simp only [Impl.cast, Impl.canCast, Option.map_some]
      split <;> simp_all
    · intro v hv
      simp only [Impl.cast] at hv
      split at hv
      · cases hv; rfl
      · cases hv
  · rw [hi]
    have hf : ((vs.map fun v => (kindOf v, v)).find? fun a => x.kind == a.1).isSome = true ↔
        ∃ v, Alternative r v ∧ x.kind = Stdx.toUpperSnakeCase v := by
      rw [List.find?_isSome]
      constructor
      · rintro ⟨a, ha, hk⟩
        obtain ⟨v, hv', rfl⟩ := List.mem_map.1 ha
        exact ⟨v, (hv v).1 hv', eq_of_beq hk⟩
      · rintro ⟨v, hv', hk⟩
        exact ⟨_, List.mem_map_of_mem ((hv v).2 hv'), by rw [hk]; exact beq_self_eq_true _⟩
    refine ⟨_, rfl, ?_, ?_, ?_⟩
    · simp only [Impl.cast, Option.isSome_map, hf]
      constructor
      · intro h'; exact ⟨r, hm, .inr ⟨hc, h'⟩⟩
      · rintro ⟨r', hr', h'⟩
        cases rule_unique hn hm hr'
        rcases h' with ⟨hc', _⟩ | ⟨_, h'⟩
        · exact absurd hc hc'
        · exact h'
    · simp only [Impl.cast, Impl.canCast, Option.map_some, Option.isSome_map, Option.some.injEq]
      rw [Bool.eq_iff_iff, List.any_eq_true, List.find?_isSome]
    · intro v hv
      simp only [Impl.cast, Option.map_eq_some_iff] at hv
      obtain ⟨_, _, rfl⟩ := hv
      rfl

/-- **C95**: a choice yields the alternative the node belongs to; the alternatives do not overlap. -/
theorem cast_choice {g : Grammar} {ast : Ast} (h : lower g = some ast) (hn : (g.map Prod.fst).Nodup) {ty : Text} {r : Rule}
    (hm : (ty, r) ∈ g) (hc : IsChoice r) (hs : ty ≠ "Stmt".toList)
    (hp : ∀ v, Alternative r v → Stdx.Spec.PascalName v) (x : Syn) (v : Text) :
    cast (generateNodes ast) ty x = some (some (.variant ty v x)) ↔
      Alternative r v ∧ x.kind = Stdx.toUpperSnakeCase v := by
  unfold cast
  rcases impl_of h hn hm (fun _ => hs) with ⟨hc', _⟩ | ⟨_, vs, hv, hi⟩
  · exact absurd hc hc'
  · rw [hi]
    simp only [Impl.cast, Option.map_some, Option.some.injEq, Option.map_eq_some_iff, Value.variant.injEq, true_and, and_true]
    constructor
    · rintro ⟨a, ha, rfl⟩
      have h1 := List.mem_of_find?_eq_some ha
      have h2 := List.find?_some ha
      obtain ⟨w, hw, rfl⟩ := List.mem_map.1 h1
      exact ⟨(hv w).1 hw, eq_of_beq h2⟩
    · rintro ⟨ha, hk⟩
      cases hf : (vs.map fun v => (kindOf v, v)).find? fun a => x.kind == a.1 with
      | none =>
        rw [List.find?_eq_none] at hf
        exact absurd (by rw [hk]; exact beq_self_eq_true _) (hf _ (List.mem_map_of_mem ((hv v).2 ha)))
      | some a =>
        refine ⟨a, rfl, ?_⟩
        have h1 := List.mem_of_find?_eq_some hf
        have h2 := List.find?_some hf
        obtain ⟨w, hw, rfl⟩ := List.mem_map.1 h1
        have h3 : x.kind = Stdx.toUpperSnakeCase w := eq_of_beq h2
        exact Stdx.snake_case_injective _ _ (hp _ ((hv w).1 hw)) (hp _ ha) (.inr (by rw [← h3, hk]))


/-! ### Accessors -/

theorem methodsOf_classes (ast : Ast) (ty : Text) :
    (generateNodes ast).findSome? (methodsOf ty) =
      ast.nodes.findSome? fun n => if n.name = ty then some (n.fields.map accessor) else none := by
  unfold generateNodes
  simp only [List.findSome?_append, findSome_map]
  have h2 : ast.enums.findSome? (fun e => methodsOf ty (.enum e.name e.variants e.traits)) = none :=
    findSome_none _ _ fun _ _ => rfl
  have h3 : (ast.enums.map Enum.name ++ ast.nodes.map Node.name).findSome? (fun a => methodsOf ty (Item.display a)) = none :=
    findSome_none _ _ fun _ _ => rfl
  have h4 : ast.nodes.findSome? (fun a => methodsOf ty (Item.classImpl a.name (kindOf a.name))) = none :=
    findSome_none _ _ fun _ _ => rfl
  have h5 : (ast.enums.flatMap choiceItems).findSome? (methodsOf ty) = none := by
    apply findSome_none
    intro a ha
    obtain ⟨e, _, hb⟩ := List.mem_flatMap.1 ha
    unfold choiceItems at hb
    rcases List.mem_append.1 hb with hb | hb
    · obtain ⟨_, _, rfl⟩ := List.mem_map.1 hb; rfl
    · split at hb
      · cases hb
      · cases List.mem_singleton.1 hb; rfl
  rw [List.findSome?_append, findSome_map, findSome_map] at h3
  rw [h2, h4, h5, h3]
  simp only [Option.or_none, methodsOf]

theorem find_accessor (fs : List Field) (hn : (fs.map Field.methodName).Nodup) (f : Field) (hf : f ∈ fs) :
    (fs.map accessor).find? (fun a => a.1 == f.methodName) = some (accessor f) := by
  have hname : ∀ f : Field, (accessor f).1 = f.methodName := by
    intro f
    rcases f with _ | ⟨_, _, _ | _⟩ <;> rfl
  induction fs with
  | nil => cases hf
  | cons a fs ih =>
    simp only [List.map_cons, List.nodup_cons] at hn
    rw [List.map_cons, List.find?_cons, hname]
    rcases List.mem_cons.1 hf with rfl | hf
    · rw [beq_self_eq_true]
    · have : (a.methodName == f.methodName) = false := by
        rw [beq_eq_false_iff_ne]
        intro e
        exact hn.1 (by rw [e]; exact List.mem_map_of_mem hf)
      rw [this]
      exact ih hn.2 hf

/-- An accessor does what its body says. -/
theorem access_eq {g : Grammar} {ast : Ast} (h : lower g = some ast) (hn : (g.map Prod.fst).Nodup) {n : Node}
    (hm : n ∈ ast.nodes) (hd : (n.fields.map Field.methodName).Nodup) {f : Field} (hf : f ∈ n.fields) (src : KindsSrc)
    (x : Syn) :
    access src (generateNodes ast) n.name f.methodName x = (accessor f).2.eval src (generateNodes ast) x := by
  unfold access
  rw [methodsOf_classes, findSome_name Node.name (fun n => n.fields.map accessor) _ (lower_names h hn).1 n hm]
  simp only [find_accessor _ hd f hf]

/-- The nodes that can be cast are the ones of the type. -/
theorem impl_accepts {g : Grammar} {ast : Ast} (h : lower g = some ast) (hn : (g.map Prod.fst).Nodup) {ty : Text}
    {r : Rule} (hm : (ty, r) ∈ g) (hs : IsChoice r → ty ≠ "Stmt".toList) :
    ∃ i, (generateNodes ast).findSome? (implFor ty) = some i ∧
      (∀ y, (i.cast ty y).isSome = true ↔ IsA g ty y) ∧ ∀ y v, i.cast ty y = some v → v.syn = y := by
  have hi : ∃ i, (generateNodes ast).findSome? (implFor ty) = some i := by
    rcases impl_of h hn hm hs with ⟨_, h'⟩ | ⟨_, _, _, h'⟩ <;> exact ⟨_, h'⟩
  obtain ⟨i, hi⟩ := hi
  refine ⟨i, hi, ?_, ?_⟩
  · intro y
    obtain ⟨o, ho, h1, _⟩ := cast_iff h hn hm hs y
    unfold cast at ho
    rw [hi] at ho
    cases ho
    exact h1
  · intro y
    obtain ⟨o, ho, _, _, h3⟩ := cast_iff h hn hm hs y
    unfold cast at ho
    rw [hi] at ho
    cases ho
    exact h3

theorem map_filterMap_syn (f : Syn → Option Value) (hf : ∀ y v, f y = some v → v.syn = y) (l : List Syn) :
    (l.filterMap f).map Value.syn = l.filter fun y => (f y).isSome := by
  induction l with
  | nil => rfl
  | cons y l ih =>
    rw [List.filterMap_cons, List.filter_cons]
    cases h : f y with
    | none => simpa using ih
    | some v => simp [hf y v h, ih]

theorem map_findSome_syn (f : Syn → Option Value) (hf : ∀ y v, f y = some v → v.syn = y) (l : List Syn) :
    (l.findSome? f).map Value.syn = l.find? fun y => (f y).isSome := by
  induction l with
  | nil => rfl
  | cons y l ih =>
    rw [List.findSome?_cons, List.find?_cons]
    cases h : f y with
    | none => simpa using ih
    | some v => simp [hf y v h]

/-- **C95**: the accessor of a repeated constituent returns the children of its type, all of them, in order. -/
theorem access_many {g : Grammar} {ast : Ast} (h : lower g = some ast) (hn : (g.map Prod.fst).Nodup) {n : Node}
    (hm : n ∈ ast.nodes) (hd : (n.fields.map Field.methodName).Nodup) {name ty : Text}
    (hf : .node name ty .many ∈ n.fields) {r : Rule} (hr : (ty, r) ∈ g) (hs : IsChoice r → ty ≠ "Stmt".toList)
    (src : KindsSrc) (x : Syn) :
    ∃ vs, access src (generateNodes ast) n.name (Field.node name ty .many).methodName x = some (.many vs) ∧
      ∃ p : Syn → Bool, (∀ y, p y = true ↔ IsA g ty y) ∧ vs.map Value.syn = x.nodes.filter p := by
  obtain ⟨i, hi, h1, h2⟩ := impl_accepts h hn hr hs
  rw [access_eq h hn hm hd hf]
  simp only [accessor, Body.eval, hi, Option.map_some, Option.some.injEq, Result.many.injEq]
  exact ⟨_, rfl, _, h1, map_filterMap_syn _ h2 _⟩

/-- **C95**: the accessor of a single constituent returns the first child of its type. -/
theorem access_one {g : Grammar} {ast : Ast} (h : lower g = some ast) (hn : (g.map Prod.fst).Nodup) {n : Node}
    (hm : n ∈ ast.nodes) (hd : (n.fields.map Field.methodName).Nodup) {name ty : Text}
    (hf : .node name ty .optional ∈ n.fields) {r : Rule} (hr : (ty, r) ∈ g) (hs : IsChoice r → ty ≠ "Stmt".toList)
    (src : KindsSrc) (x : Syn) :
    ∃ v, access src (generateNodes ast) n.name (Field.node name ty .optional).methodName x = some (.one v) ∧
      ∃ p : Syn → Bool, (∀ y, p y = true ↔ IsA g ty y) ∧ v.map Value.syn = x.nodes.find? p := by
  obtain ⟨i, hi, h1, h2⟩ := impl_accepts h hn hr hs
  rw [access_eq h hn hm hd hf]
  simp only [accessor, Body.eval, hi, Option.map_some, Option.some.injEq, Result.one.injEq]
  exact ⟨_, rfl, _, h1, map_findSome_syn _ h2 _⟩

/-- How a punctuation is written between the brackets of `T!`: brackets in quotes. -/
def Written (token w : Text) : Prop :=
  (Bracket token ∧ w = '\'' :: (token ++ ['\''])) ∨ (¬ Bracket token ∧ w = token)

instance (token : Text) : Decidable (Bracket token) :=
  decidable_of_iff _ (isBracket_iff token)

/-- **C95**: `T!` gives every punctuation and every keyword of the table its kind. -/
theorem macro_kind :
    (∀ token kind w, (token, kind) ∈ kindsSrc.punct → Written token w → kindMacro kindsSrc w = some kind) ∧
    (∀ kw, kw ∈ kindsSrc.keywords → kindMacro kindsSrc kw = some (keywordKind kw)) ∧
    kindMacro kindsSrc "ident".toList = some "IDENT".toList := by
  have h1 : ∀ p ∈ kindsSrc.punct, kindMacro kindsSrc (if isBracket p.1 then '\'' :: (p.1 ++ ['\'']) else p.1) = some p.2 := by
    decide +kernel
  have h2 : ∀ kw ∈ kindsSrc.keywords, kindMacro kindsSrc kw = some (keywordKind kw) := by decide +kernel
  refine ⟨?_, h2, by decide +kernel⟩
  intro token kind w hm hw
  have := h1 _ hm
  rcases hw with ⟨hb, rfl⟩ | ⟨hb, rfl⟩
  · rwa [if_pos ((isBracket_iff _).2 hb)] at this
  · rwa [if_neg (fun h => hb ((isBracket_iff _).1 h))] at this

/-- **C95**: the accessor of a token returns the first child token of its kind. -/
theorem access_token {g : Grammar} {ast : Ast} (h : lower g = some ast) (hn : (g.map Prod.fst).Nodup) {n : Node}
    (hm : n ∈ ast.nodes) (hd : (n.fields.map Field.methodName).Nodup) {w token kind : Text} (hf : .token w ∈ n.fields)
    (hw : ((token, kind) ∈ kindsSrc.punct ∧ Written token w) ∨ (w ∈ kindsSrc.keywords ∧ kind = keywordKind w) ∨
      (w = "ident".toList ∧ kind = "IDENT".toList)) (x : Syn) :
    access kindsSrc (generateNodes ast) n.name (Field.token w).methodName x =
      some (.token (x.tokens.find? fun t => t.1 == kind)) := by
  have hk : kindMacro kindsSrc w = some kind := by
    rcases hw with ⟨h1, h2⟩ | ⟨h1, rfl⟩ | ⟨rfl, rfl⟩
    · exact macro_kind.1 _ _ _ h1 h2
    · exact macro_kind.2.1 _ h1
    · exact macro_kind.2.2
  rw [access_eq h hn hm hd hf]
  simp only [accessor, Body.eval, hk, Option.map_some]

/-- Conformance: crates/syntax/src/ast/nodes.rs:5-191 is what is generated. -/
theorem committed_nodes : (lower moveGrammar).map generateNodes = some (
    let s := String.toList
    let children (m ty : String) : Text × Body := (s m, .children (s ty))
    let child (m ty : String) : Text × Body := (s m, .child (s ty))
    let token (m sym : String) : Text × Body := (s m, .token (s sym))
    [.struct (s "SourceFile") [children "script_defs" "ScriptDef"],
     .struct (s "ScriptDef") [token "l_brace_token" "'{'", children "function_defs" "FunctionDef",
       token "r_brace_token" "'}'"],
     .struct (s "FunctionDef") [token "fun_token" "fun", token "ident_token" "ident", token "l_paren_token" "'('",
       token "r_paren_token" "')'", token "l_brace_token" "'{'", children "expr_stmts" "ExprStmt",
       token "r_brace_token" "'}'"],
     .struct (s "ExprStmt") [child "expr" "Expr", token "semicolon_token" ";"],
     .struct (s "BinExpr") [child "lhs" "Expr", token "plus_token" "+", token "minus_token" "-",
       token "star_token" "*", token "slash_token" "/", token "mod_token" "%", child "rhs" "Expr"],
     .struct (s "Literal") [token "true_token" "true", token "false_token" "false"],
     .enum (s "Expr") [s "BinExpr", s "Literal"] [],
     .classImpl (s "SourceFile") (s "SOURCE_FILE"), .classImpl (s "ScriptDef") (s "SCRIPT_DEF"),
     .classImpl (s "FunctionDef") (s "FUNCTION_DEF"), .classImpl (s "ExprStmt") (s "EXPR_STMT"),
     .classImpl (s "BinExpr") (s "BIN_EXPR"), .classImpl (s "Literal") (s "LITERAL"),
     .from (s "BinExpr") (s "Expr"), .from (s "Literal") (s "Expr"),
     .choiceImpl (s "Expr") [(s "BIN_EXPR", s "BinExpr"), (s "LITERAL", s "Literal")],
     .display (s "Expr"), .display (s "SourceFile"), .display (s "ScriptDef"), .display (s "FunctionDef"),
     .display (s "ExprStmt"), .display (s "BinExpr"), .display (s "Literal")]) := by decide +kernel

/-- C95: the classes of tokens, crates/syntax/src/ast/tokens.rs, test for kinds that exist. -/
theorem token_classes : generateTokens tokenClasses =
    [("Whitespace", "WHITESPACE"), ("Comment", "COMMENT"), ("HexString", "HEX_STRING"), ("ByteString", "BYTE_STRING"),
      ("IntegerNumber", "INTEGER_NUMBER")].map (fun p : String × String => (p.1.toList, p.2.toList)) ∧
    ∀ p, p ∈ generateTokens tokenClasses → ∃ k, k ∈ Kind.all ∧ kindName k = p.2 := by
  constructor <;> decide +kernel

/-- C95: every kind `T!` can give is one of the enum, for every table that has the token `IDENT`, with one exception. -/
theorem macro_arms_exist (src : KindsSrc) (hi : "IDENT".toList ∈ src.tokens) (symbol kind : Text)
    (h : kindMacro src symbol = some kind) : kind ∈ (generateKinds src).variants ∨ kind = "SHEBANG".toList := by
  unfold kindMacro at h
  obtain ⟨a, ha, rfl⟩ := Option.map_eq_some_iff.1 h
  have hm := List.mem_of_find?_eq_some ha
  unfold macroArms at hm
  simp only [generateKinds, List.mem_append]
  rcases List.mem_append.1 hm with hm | hm
  · rcases List.mem_append.1 hm with hm | hm
    · obtain ⟨p, hp, rfl⟩ := List.mem_map.1 hm
      exact .inl (.inl (.inl (.inl (.inl (.inl (.inr (List.mem_map_of_mem hp)))))))
    · obtain ⟨p, hp, rfl⟩ := List.mem_map.1 hm
      exact .inl (.inl (.inl (.inl (.inl (.inr (List.mem_map_of_mem hp))))))
  · simp only [List.mem_cons, List.not_mem_nil, or_false] at hm
    rcases hm with rfl | rfl
    · exact .inl (.inl (.inl (.inr hi)))
    · exact .inr rfl

/-! ### Where the generated code does not compile -/

/-- `T![shebang]` names a kind that does not exist. -/
theorem shebang_missing : kindMacro kindsSrc "shebang".toList = some "SHEBANG".toList ∧
    "SHEBANG".toList ∉ (generateKinds kindsSrc).variants := by
  constructor <;> decide +kernel

/-- A choice called `Stmt` gets no `cast`, although a constituent of that type gets an accessor that needs it. -/
theorem stmt_missing {g : Grammar} {ast : Ast} (h : lower g = some ast) (hn : (g.map Prod.fst).Nodup) {r : Rule}
    (hr : ("Stmt".toList, r) ∈ g) (hc : IsChoice r) (x : Syn) : cast (generateNodes ast) "Stmt".toList x = none ∧
    ∀ (n : Node) (name : Text) (card : Cardinality), n ∈ ast.nodes → (n.fields.map Field.methodName).Nodup →
      .node name "Stmt".toList card ∈ n.fields → ∀ src,
      access src (generateNodes ast) n.name (Field.node name "Stmt".toList card).methodName x = none := by
  obtain ⟨c1, c2, c3⟩ := lower_classes h
  have hi : (generateNodes ast).findSome? (implFor "Stmt".toList) = none := by
    rw [implFor_classes, findSome_other Node.name (fun n => Impl.class (kindOf n.name)), Option.none_or]
    · apply findSome_none
      intro e _
      rw [if_neg (fun h => h.2 h.1)]
    · intro hin
      obtain ⟨n, hn', e'⟩ := List.mem_map.1 hin
      obtain ⟨r', hr', hnc⟩ := (c1 _).1 ⟨n, hn', e'⟩
      cases rule_unique hn hr hr'
      exact hnc hc
  constructor
  · unfold cast; rw [hi]; rfl
  · intro n name card hm hd hf src
    rw [access_eq h hn hm hd hf]
    cases card <;> simp only [accessor, Body.eval, hi, Option.map_none]

/-! ### Witnesses -/

/-- `Block = Stmt*`, `Stmt = LetStmt | ExprStmt`. -/
def stmtGrammar : Grammar :=
  [("Block".toList, .rep (.node "Stmt".toList)), ("Stmt".toList, .alt [.node "LetStmt".toList, .node "ExprStmt".toList]),
   ("LetStmt".toList, .token ";".toList), ("ExprStmt".toList, .token ";".toList)]

example : ∃ a n, lower stmtGrammar = some a ∧ (stmtGrammar.map Prod.fst).Nodup ∧ n ∈ a.nodes ∧
    (n.fields.map Field.methodName).Nodup ∧ .node "stmts".toList "Stmt".toList .many ∈ n.fields :=
  ⟨_, ⟨"Block".toList, [], [.node "stmts".toList "Stmt".toList .many]⟩, rfl, by decide +kernel, by decide +kernel,
    by decide +kernel, by decide +kernel⟩

/-- The node of `1 + 2;` in a function. -/
def sampleStmt : Syn :=
  let bin : Elem := .node "BIN_EXPR".toList [.node "LITERAL".toList [], .token "PLUS".toList "+".toList,
    .node "LITERAL".toList []]
  ⟨"EXPR_STMT".toList, [.token "WHITESPACE".toList " ".toList, bin, .token "SEMICOLON".toList ";".toList]⟩

/-- The accessors of `ExprStmt` on it. -/
example : ∃ a n, lower moveGrammar = some a ∧ (moveGrammar.map Prod.fst).Nodup ∧ n ∈ a.nodes ∧
    (n.fields.map Field.methodName).Nodup ∧ .node "expr".toList "Expr".toList .optional ∈ n.fields ∧
    .token ";".toList ∈ n.fields ∧ (";".toList, "SEMICOLON".toList) ∈ kindsSrc.punct ∧ ¬ Bracket ";".toList :=
  ⟨_, ⟨"ExprStmt".toList, [], [.node "expr".toList "Expr".toList .optional, .token ";".toList]⟩, rfl,
    by decide +kernel, by decide +kernel, by decide +kernel, by decide +kernel, by decide +kernel, by decide +kernel,
    by decide +kernel⟩

theorem expr_choice : IsChoice (.alt [.node "BinExpr".toList, .node "Literal".toList]) :=
  ⟨_, rfl, fun a ha => by
    simp only [List.mem_cons, List.not_mem_nil, or_false] at ha
    rcases ha with rfl | rfl <;> exact .inl ⟨_, rfl⟩⟩

/-- The first child node of `1 + 2;` is an `Expr`, the statement is not. -/
example : (∃ y, sampleStmt.nodes.head? = some y ∧ IsA moveGrammar "Expr".toList y) ∧
    ¬ IsA moveGrammar "Expr".toList sampleStmt := by
  have hm : ("Expr".toList, Rule.alt [.node "BinExpr".toList, .node "Literal".toList]) ∈ moveGrammar := by
    unfold moveGrammar
    exact List.mem_of_getElem? (i := 4) rfl
  constructor
  · exact ⟨_, rfl, _, hm, .inr ⟨expr_choice, "BinExpr".toList, ⟨_, rfl, List.mem_of_getElem? (i := 0) rfl⟩,
      by decide +kernel⟩⟩
  · intro hA
    obtain ⟨a, ha⟩ := move_lowers
    obtain ⟨o, _, h2, h3, _⟩ := cast_iff ha (by decide +kernel) hm (fun _ => by decide) sampleStmt
    have : (lower moveGrammar).bind (fun a => canCast (generateNodes a) "Expr".toList sampleStmt.kind) = some false := by
      decide +kernel
    rw [ha, Option.bind_some, h3, h2.2 hA] at this
    cases this

/-- The hypotheses of `cast_choice`. -/
example : (∀ v, Alternative (.alt [.node "BinExpr".toList, .node "Literal".toList]) v → Stdx.Spec.PascalName v) := by
  rintro v ⟨_, h, hv⟩
  cases h
  simp only [List.mem_cons, List.not_mem_nil, or_false, Rule.node.injEq] at hv
  rcases hv with rfl | rfl <;> exact ⟨by decide, by decide⟩

end Verif.AstGen
