import Verif.Paths.AbsModel
import Verif.Paths.Resolve

set_option autoImplicit false

/-! Property C103: absolute paths. -/

namespace Verif.Paths.Abs

open Verif.Paths.Spec

/-! ## Specification -/

/-- An absolute path. -/
def Absolute (p : Text) : Prop := ∃ rest, p = '/' :: rest

/-- `Lies p names`: the absolute path leads along these segments other than empty ones and `.`; `..` is not resolved. -/
def Lies (p : Text) (names : List Text) : Prop :=
  ∃ rest, p = '/' :: rest ∧ names = (splitSlash rest).filter (fun s => s != [] && s != ['.'])

/-! ## Lemmas -/

theorem render_splitSlash (t : Text) : render (splitSlash t) = '/' :: t := by
  induction t with
  | nil => rfl
  | cons c cs ih =>
    simp only [splitSlash]
    split
    · rename_i h; subst h; simp [render, ih]
    · cases hs : splitSlash cs with
      | nil => exact absurd hs (splitSlash_ne cs)
      | cons s ss =>
        rw [hs] at ih
        simp only [render] at ih ⊢
        have := (List.cons.inj ih).2
        simp
        exact this

theorem isAbsolute_iff (p : Text) : isAbsolute p = true ↔ Absolute p := by
  unfold isAbsolute Absolute
  cases p with
  | nil => simp
  | cons c cs => simp

theorem counts_iff (s : Text) : counts s = (s != [] && s != ['.']) := by
  unfold counts segComponent
  by_cases h1 : s = []
  · subst h1; rfl
  by_cases h2 : s = ['.']
  · subst h2; rfl
  rw [if_neg (by simp [h1, h2])]
  have e1 : (s != []) = true := by simp [h1]
  have e2 : (s != ['.']) = true := by simp [h2]
  rw [e1, e2]
  split <;> rfl

theorem lies_iff (rest : Text) (names : List Text) : Lies ('/' :: rest) names ↔ names = (splitSlash rest).filter counts := by
  have e : (fun s : Text => s != [] && s != ['.']) = counts := funext fun s => (counts_iff s).symm
  unfold Lies
  rw [e]
  constructor
  · rintro ⟨r, h1, h2⟩; cases h1; exact h2
  · intro h; exact ⟨rest, rfl, h⟩

/-- The component of a segment that has one. -/
def componentOf (s : Text) : Component := if s = ['.', '.'] then .parentDir else .normal s

theorem filterMap_counts (segs : List Text) : segs.filterMap segComponent = (segs.filter counts).map componentOf := by
  induction segs with
  | nil => rfl
  | cons s ss ih =>
    rw [List.filterMap_cons, List.filter_cons, ih]
    unfold counts
    cases h : segComponent s with
    | none => simp
    | some c =>
      simp only [Option.isSome_some, if_true, List.map_cons, List.cons.injEq, and_true]
      unfold segComponent at h
      split at h
      · cases h
      · unfold componentOf
        split at h
        · rename_i he; cases h; rw [if_pos he]
        · rename_i he; cases h; rw [if_neg he]

theorem componentOf_inj (a b : Text) (h : componentOf a = componentOf b) : a = b := by
  unfold componentOf at h
  split at h <;> split at h
  · rename_i h1 h2; rw [h1, h2]
  · cases h
  · cases h
  · cases h; rfl

theorem map_componentOf_inj (a b : List Text) (h : a.map componentOf = b.map componentOf) : a = b := by
  induction a generalizing b with
  | nil => cases b with
    | nil => rfl
    | cons _ _ => cases h
  | cons x xs ih =>
    cases b with
    | nil => cases h
    | cons y ys =>
      simp only [List.map_cons, List.cons.injEq] at h
      rw [componentOf_inj _ _ h.1, ih _ h.2]

theorem components_abs (rest : Text) :
    components ('/' :: rest) = .rootDir :: ((splitSlash rest).filter counts).map componentOf := by
  unfold components
  rw [if_pos (by rfl)]
  have : splitSlash ('/' :: rest) = [] :: splitSlash rest := by simp [splitSlash]
  rw [this, List.filterMap_cons]
  have e : segComponent [] = none := rfl
  rw [e]
  simp only [filterMap_counts]
  rfl

theorem components_lies (p : Text) (names : List Text) (h : Lies p names) :
    components p = .rootDir :: names.map componentOf := by
  obtain ⟨rest, rfl, _⟩ := id h
  rw [components_abs, ← (lies_iff rest names).1 h]

theorem lies_exists (p : Text) (h : Absolute p) : ∃ names, Lies p names := by
  obtain ⟨rest, rfl⟩ := h
  exact ⟨_, (lies_iff rest _).2 rfl⟩

theorem lies_unique (p : Text) (a b : List Text) (ha : Lies p a) (hb : Lies p b) : a = b := by
  obtain ⟨rest, rfl, _⟩ := id ha
  rw [(lies_iff rest a).1 ha, (lies_iff rest b).1 hb]

theorem splitSlash_of_render (segs : List Text) (hne : segs ≠ []) (h : ∀ s, s ∈ segs → '/' ∉ s) :
    ∃ rest, render segs = '/' :: rest ∧ splitSlash rest = segs := by
  cases segs with
  | nil => exact absurd rfl hne
  | cons s ss =>
    exact ⟨s ++ render ss, rfl, splitSlash_render s ss (h s (by simp)) (fun x hx => h x (by simp [hx]))⟩

theorem ofSegments_eq (segs : List Text) (hne : segs ≠ []) : ofSegments segs = render segs := by
  cases segs with
  | nil => exact absurd rfl hne
  | cons s ss =>
    unfold ofSegments
    have e : ∀ l : List Text, l.flatMap (fun s => '/' :: s) = render l := by
      intro l
      induction l with
      | nil => rfl
      | cons a as ih => simp only [List.flatMap_cons, render, ih]
    exact e _

theorem lies_ofSegments (segs : List Text) (h : ∀ s, s ∈ segs → '/' ∉ s) : Lies (ofSegments segs) (segs.filter counts) := by
  by_cases hne : segs = []
  · subst hne; exact ⟨[], rfl, rfl⟩
  · rw [ofSegments_eq segs hne]
    obtain ⟨rest, h1, h2⟩ := splitSlash_of_render segs hne h
    rw [h1]
    exact (lies_iff rest _).2 (by rw [h2])

theorem dropWhile_filter {α : Type} (p : α → Bool) (l : List α) : (l.dropWhile (fun a => !p a)).filter p = l.filter p := by
  induction l with
  | nil => rfl
  | cons a l ih =>
    rw [List.dropWhile_cons, List.filter_cons]
    cases h : p a with
    | true => simp [h]
    | false => simp [ih]

theorem trimRight_filter (segs : List Text) : (trimRight segs).filter counts = segs.filter counts := by
  unfold trimRight
  rw [List.filter_reverse, dropWhile_filter, ← List.filter_reverse, List.reverse_reverse]

theorem mem_trimRight (segs : List Text) (s : Text) (h : s ∈ trimRight segs) : s ∈ segs := by
  unfold trimRight at h
  rw [List.mem_reverse] at h
  exact List.mem_reverse.1 ((List.dropWhile_sublist _).subset h)

theorem trimRight_last (segs : List Text) (s : Text) (h : (trimRight segs).getLast? = some s) : counts s = true := by
  unfold trimRight at h
  rw [List.getLast?_reverse] at h
  have : ∀ l : List Text, (l.dropWhile (fun s => !counts s)).head? = some s → counts s = true := by
    intro l
    induction l with
    | nil => intro h; cases h
    | cons a l ih =>
      rw [List.dropWhile_cons]
      cases ha : counts a with
      | true => intro h; simp at h; rw [← h]; exact ha
      | false => simpa using ih
  exact this _ h

theorem trimRight_nil (segs : List Text) : trimRight segs = [] ↔ segs.filter counts = [] := by
  constructor
  · intro h; rw [← trimRight_filter, h]; rfl
  · intro h
    rcases List.eq_nil_or_concat (trimRight segs) with h0 | ⟨init, last, h0⟩
    · exact h0
    · rw [List.concat_eq_append] at h0
      have hl := trimRight_last segs last (by rw [h0]; simp)
      rw [← trimRight_filter, h0, List.filter_append] at h
      simp [hl] at h

theorem after_append {α : Type} [DecidableEq α] (a b : List α) : after (a ++ b) a = some b := by
  induction a with
  | nil => simp [after]
  | cons x xs ih => simp [after, ih]

theorem after_some {α : Type} [DecidableEq α] (xs ys r : List α) (h : after xs ys = some r) : xs = ys ++ r := by
  induction ys generalizing xs with
  | nil => simp [after] at h; simp [h]
  | cons y ys ih =>
    cases xs with
    | nil => simp [after] at h
    | cons x xs =>
      simp only [after] at h
      split at h
      · rename_i he; subst he; rw [ih xs h]; rfl
      · cases h

/-- The parent of a path, by the names on it. -/
theorem stdParent_lies (p : Text) (names : List Text) (h : Lies p names) :
    (names = [] ∧ stdParent p = none) ∨ (names ≠ [] ∧ ∃ q, stdParent p = some q ∧ Lies q names.dropLast) := by
  obtain ⟨rest, rfl, _⟩ := id h
  have hn := (lies_iff rest names).1 h
  by_cases h0 : names = []
  · left
    refine ⟨h0, ?_⟩
    have : trimRight (splitSlash rest) = [] := (trimRight_nil _).2 (by rw [← hn, h0])
    simp only [stdParent, this]
  · right
    refine ⟨h0, ?_⟩
    have hne : trimRight (splitSlash rest) ≠ [] := fun he => h0 (by rw [hn]; exact (trimRight_nil _).1 he)
    have hf := trimRight_filter (splitSlash rest)
    have hlast := trimRight_last (splitSlash rest)
    have hmem := mem_trimRight (splitSlash rest)
    revert hne hf hlast hmem
    simp only [stdParent]
    generalize trimRight (splitSlash rest) = segs
    intro hne hf hlast hmem
    rcases List.eq_nil_or_concat segs with he | ⟨init, last, he⟩
    · exact absurd he hne
    · rw [List.concat_eq_append] at he
      subst he
      have hl := hlast last (by simp)
      refine ⟨_, by split; · rename_i h'; simp at h'
                    · rfl, ?_⟩
      rw [hn, ← hf, List.dropLast_concat, List.filter_append]
      simp only [List.filter_cons, hl, if_true, List.filter_nil, List.dropLast_concat]
      have := lies_ofSegments (trimRight init) (fun s hs => by
        refine splitSlash_no_slash rest s (hmem s ?_)
        simp [mem_trimRight init s hs])
      rwa [trimRight_filter] at this

/-! ## C103 -/

/-- C103: joining never panics and gives an absolute path: the second one if it is absolute, and otherwise the one
that leads along the first and then along the second. -/
theorem join_leads_along (a p : Text) (names : List Text) (h : Lies a names) :
    ∃ q, join a p = some q ∧ (Absolute p → q = p) ∧
      (¬ Absolute p → Lies q (names ++ (splitSlash p).filter (fun s => s != [] && s != ['.']))) := by
  obtain ⟨rest, rfl, _⟩ := id h
  have hn := (lies_iff rest names).1 h
  have ef : (fun s : Text => s != [] && s != ['.']) = counts := funext fun s => (counts_iff s).symm
  rw [ef]
  by_cases hp : isAbsolute p = true
  · refine ⟨p, ?_, fun _ => rfl, fun hn => absurd ((isAbsolute_iff p).1 hp) hn⟩
    simp [join, stdJoin, tryFrom, hp]
  · have key : ∃ r, stdJoin ('/' :: rest) p = '/' :: r ∧ (splitSlash r).filter counts = (splitSlash rest).filter counts ++ (splitSlash p).filter counts := by
      unfold stdJoin
      rw [if_neg hp]
      split
      · rename_i hl
        refine ⟨rest ++ p, rfl, ?_⟩
        rcases List.eq_nil_or_concat rest with rfl | ⟨init, c, rfl⟩
        · simp [splitSlash, counts, segComponent]
        · rw [List.concat_eq_append] at *
          have hc : c = '/' := by
            rw [← List.cons_append, List.getLast?_append] at hl
            simpa using hl
          subst hc
          have e : ∀ t : Text, splitSlash (init ++ ['/'] ++ t) = splitSlash init ++ splitSlash t := by
            intro t
            rw [List.append_assoc]
            exact splitSlash_slash init t
          rw [e, List.filter_append]
          have := e []
          rw [List.append_nil] at this
          rw [this, List.filter_append]
          simp [splitSlash, counts, segComponent]
      · refine ⟨rest ++ '/' :: p, rfl, ?_⟩
        rw [splitSlash_slash, List.filter_append]
      · rename_i hl
        simp at hl
    obtain ⟨r, h1, h2⟩ := key
    refine ⟨'/' :: r, ?_, fun ha => absurd ((isAbsolute_iff p).2 ha) hp, fun _ => ?_⟩
    · unfold join tryFrom
      rw [h1, if_pos (by rfl)]
    · exact (lies_iff r _).2 (by rw [h2, hn])

/-- C103: the parent of an absolute path leads along all its names but the last; only the root has none; nothing panics. -/
theorem parent_leads_along (p : Text) (names : List Text) (h : Lies p names) :
    (names = [] ∧ parent p = .nothing) ∨ (names ≠ [] ∧ ∃ q, parent p = .path q ∧ Lies q names.dropLast) := by
  rcases stdParent_lies p names h with ⟨h0, h1⟩ | ⟨h0, q, h1, h2⟩
  · exact .inl ⟨h0, by unfold parent; rw [h1]⟩
  · refine .inr ⟨h0, q, ?_, h2⟩
    obtain ⟨r, rfl, _⟩ := id h2
    unfold parent
    rw [h1]
    rfl

/-- C103: removing the last name from a path leaves an absolute path; at the root nothing is removed. -/
theorem pop_leads_along (p : Text) (names : List Text) (h : Lies p names) :
    Lies (pop p).1 names.dropLast ∧ ((pop p).2 = true ↔ names ≠ []) := by
  unfold pop
  rcases stdParent_lies p names h with ⟨h0, h1⟩ | ⟨h0, q, h1, h2⟩
  · subst h0; rw [h1]; exact ⟨h, by simp⟩
  · rw [h1]; exact ⟨h2, by simp [h0]⟩

/-- C103: one path starts with another exactly if its names do, and what remains are the other names. -/
theorem strip_leads_along (p base : Text) (names bnames : List Text) (h : Lies p names) (hb : Lies base bnames) :
    (startsWith p base = true ↔ ∃ more, names = bnames ++ more) ∧
    (∀ more, names = bnames ++ more → stripPrefix p base = some (more.map componentOf)) := by
  have e1 := components_lies p names h
  have e2 := components_lies base bnames hb
  have key : ∀ more, names = bnames ++ more → stripPrefix p base = some (more.map componentOf) := by
    rintro more rfl
    unfold stripPrefix
    rw [e1, e2, List.map_append, ← List.cons_append]
    exact after_append _ _
  refine ⟨⟨fun hs => ?_, fun ⟨more, hm⟩ => ?_⟩, key⟩
  · unfold startsWith at hs
    cases ha : after (components p) (components base) with
    | none => rw [ha] at hs; cases hs
    | some r =>
      have := after_some _ _ _ ha
      rw [e1, e2, List.cons_append, List.cons.injEq] at this
      have h3 : names.map componentOf = bnames.map componentOf ++ r := this.2
      refine ⟨names.drop bnames.length, map_componentOf_inj _ _ ?_⟩
      rw [List.map_append, List.map_drop, h3, List.drop_left' (by simp)]
  · unfold startsWith
    have := key more hm
    unfold stripPrefix at this
    rw [this]; rfl

/-- C103: a path ends with a relative path exactly if its last names are those of the relative path (without a
leading `.`, which a relative path keeps). -/
theorem ends_along (p suffix : Text) (names : List Text) (h : Lies p names) (hs : ¬ Absolute suffix)
    (hd : (splitSlash suffix).head? ≠ some ['.']) :
    endsWith p suffix = true ↔ ∃ front, names = front ++ (splitSlash suffix).filter (fun s => s != [] && s != ['.']) := by
  have ef : (fun s : Text => s != [] && s != ['.']) = counts := funext fun s => (counts_iff s).symm
  rw [ef]
  have e1 := components_lies p names h
  have e2 : components suffix = ((splitSlash suffix).filter counts).map componentOf := by
    unfold components
    have : ¬ suffix.head? = some '/' := fun hh => hs ((isAbsolute_iff suffix).1 (by simp [isAbsolute, hh]))
    rw [if_neg this, if_neg hd, filterMap_counts]; rfl
  generalize (splitSlash suffix).filter counts = snames at e2
  unfold endsWith
  rw [e1, e2]
  constructor
  · intro hx
    cases ha : after (Component.rootDir :: names.map componentOf).reverse (snames.map componentOf).reverse with
    | none => rw [ha] at hx; cases hx
    | some r =>
      have hx := after_some _ _ _ ha
      have h2 : Component.rootDir :: names.map componentOf = r.reverse ++ snames.map componentOf := by
        have := congrArg List.reverse hx
        simpa using this
      cases hr : r.reverse with
      | nil =>
        rw [hr] at h2
        cases snames with
        | nil => cases h2
        | cons s ss =>
          simp only [List.nil_append, List.map_cons, List.cons.injEq] at h2
          have := h2.1
          unfold componentOf at this
          split at this <;> cases this
      | cons x xs =>
        rw [hr, List.cons_append, List.cons.injEq] at h2
        have hlen : xs.length + snames.length = names.length := by
          have := congrArg List.length h2.2
          simp at this; omega
        refine ⟨names.take xs.length, map_componentOf_inj _ _ ?_⟩
        rw [List.map_append, List.map_take, h2.2, List.take_left' rfl]
  · rintro ⟨front, rfl⟩
    have : (Component.rootDir :: (front ++ snames).map componentOf).reverse =
        (snames.map componentOf).reverse ++ (Component.rootDir :: front.map componentOf).reverse := by simp
    rw [this, after_append]; rfl

/-- C103: what was joined can be stripped again, and a name that was joined is below its directory. -/
theorem strip_join (a p : Text) (ha : Absolute a) (hp : ¬ Absolute p) :
    ∃ q, join a p = some q ∧ startsWith q a = true ∧
      stripPrefix q a = some (((splitSlash p).filter (fun s => s != [] && s != ['.'])).map componentOf) := by
  obtain ⟨names, hn⟩ := lies_exists a ha
  obtain ⟨q, h1, _, h3⟩ := join_leads_along a p names hn
  have hs := strip_leads_along q a _ names (h3 hp) hn
  exact ⟨q, h1, hs.1.2 ⟨_, rfl⟩, hs.2 _ rfl⟩

/-- C103: the parent of a path made with a name leads where the path was made. -/
theorem parent_join (a n : Text) (names : List Text) (ha : Lies a names) (hn : Name n) :
    ∃ q r, join a n = some q ∧ parent q = .path r ∧ Lies r names := by
  have hrel : ¬ Absolute n := by rintro ⟨rest, rfl⟩; exact hn.2.1 (by simp)
  obtain ⟨q, h1, _, h3⟩ := join_leads_along a n names ha
  have h4 := h3 hrel
  have hs : splitSlash n = [n] := by simpa [render] using splitSlash_render n [] hn.2.1 (by simp)
  have hf : ([n].filter (fun s => s != [] && s != ['.'])) = [n] := by simp [hn.1, hn.2.2.1]
  rw [hs, hf] at h4
  rcases parent_leads_along q _ h4 with ⟨h0, _⟩ | ⟨_, r, h5, h6⟩
  · simp at h0
  · exact ⟨q, r, h1, h5, by simpa using h6⟩

/-- C103: a manifest is any path but the root, and its directory is always found. -/
theorem manifest_has_directory (file : Text) (names : List Text) (h : Lies file names) :
    (manifestPath file = .path file ∧ names ≠ [] ∧ ∃ q, manifestParent file = .path q ∧ Lies q names.dropLast) ∨
      (manifestPath file = .nothing ∧ names = []) := by
  rcases parent_leads_along file names h with ⟨h0, h1⟩ | ⟨h0, q, h1, h2⟩
  · exact .inr ⟨by unfold manifestPath; rw [h1], h0⟩
  · exact .inl ⟨by unfold manifestPath; rw [h1], h0, q, by unfold manifestParent; rw [h1], h2⟩

/-- C103: normalising keeps a path absolute. -/
theorem normalize_absolute (p : Text) (h : Absolute p) : Absolute (normalizePath p) := by
  obtain ⟨rest, rfl⟩ := h
  obtain ⟨there, _, _, h3⟩ := normalize_is_walk ('/' :: rest) rfl
  rw [h3]
  cases there with
  | nil => exact ⟨[], rfl⟩
  | cons n ns => exact ⟨n ++ render ns, rfl⟩

/-- Witnesses. -/
example : join "/a//b/".toList "./c/../d".toList = some "/a//b/./c/../d".toList ∧
    parent "/a//b/./".toList = .path "/a".toList ∧ parent "//.".toList = .nothing ∧
    startsWith "/a/./b/c".toList "//a/b/".toList = true ∧ startsWith "/ab".toList "/a".toList = false ∧
    endsWith "/x/src/m.move".toList "src//m.move".toList = true := by decide +kernel

example : Lies "/a//./b".toList ["a".toList, "b".toList] := ⟨"a//./b".toList, rfl, by decide +kernel⟩

end Verif.Paths.Abs
