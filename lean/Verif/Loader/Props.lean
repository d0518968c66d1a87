import Verif.Loader.Model
import Verif.Paths.Name

/-! Property C21: the directory filter. -/

namespace Verif.Loader

theorem startsWith_iff (p b : AbsPath) : startsWith p b = true ↔ b <+: p := by
  simp [startsWith, List.isPrefixOf_iff_prefix]

/-- The chosen include is the deepest matching one. -/
theorem chooseInclude_fold (path : AbsPath) (l : List AbsPath) (start : Option AbsPath)
    (hstart : ∀ i, start = some i → i <+: path) :
    let r := l.foldl (fun inc incl =>
      if startsWith path incl then
        some (match inc with
          | some prev => if startsWith prev incl then prev else incl
          | none => incl)
      else inc) start
    (r = none ↔ start = none ∧ ∀ i ∈ l, ¬ i <+: path) ∧
    (∀ i, r = some i → i <+: path ∧ (start = some i ∨ i ∈ l) ∧
      (∀ s, start = some s → s <+: i) ∧ ∀ j ∈ l, j <+: path → j <+: i) := by
  induction l generalizing start with
  | nil =>
    refine ⟨by simp, ?_⟩
    intro i hi
    simp at hi
    refine ⟨hstart i hi, Or.inl hi, ?_, by simp⟩
    intro s hs
    rw [hs] at hi
    simp at hi
    rw [hi]
    exact List.prefix_refl _
  | cons a l ih =>
    simp only [List.foldl_cons]
    by_cases ha : a <+: path
    · rw [if_pos ((startsWith_iff _ _).2 ha)]
      cases start with
      | none =>
        obtain ⟨h1, h2⟩ := ih (some a) (by intro i hi; simp at hi; rw [← hi]; exact ha)
        refine ⟨?_, ?_⟩
        · rw [h1]; simp [ha]
        · intro i hi
          obtain ⟨g1, g2, g3, g4⟩ := h2 i hi
          refine ⟨g1, ?_, by simp, ?_⟩
          · right
            rcases g2 with g2 | g2
            · simp at g2; simp [g2]
            · simp [g2]
          · intro j hj hjp
            rcases List.mem_cons.1 hj with rfl | hj
            · exact g3 j rfl
            · exact g4 j hj hjp
      | some prev =>
        have hprev := hstart prev rfl
        simp only
        by_cases hpa : a <+: prev
        · rw [if_pos ((startsWith_iff _ _).2 hpa)]
          obtain ⟨h1, h2⟩ := ih (some prev) (by intro i hi; simp at hi; rw [← hi]; exact hprev)
          refine ⟨by rw [h1]; simp, ?_⟩
          intro i hi
          obtain ⟨g1, g2, g3, g4⟩ := h2 i hi
          refine ⟨g1, ?_, g3, ?_⟩
          · rcases g2 with g2 | g2
            · exact Or.inl g2
            · exact Or.inr (by simp [g2])
          · intro j hj hjp
            rcases List.mem_cons.1 hj with rfl | hj
            · exact hpa.trans (g3 prev rfl)
            · exact g4 j hj hjp
        · rw [if_neg (by rw [startsWith_iff]; exact hpa)]
          have hpa' : prev <+: a := by
            rcases List.prefix_or_prefix_of_prefix hprev ha with h | h
            · exact h
            · exact absurd h hpa
          obtain ⟨h1, h2⟩ := ih (some a) (by intro i hi; simp at hi; rw [← hi]; exact ha)
          refine ⟨by rw [h1]; simp, ?_⟩
          intro i hi
          obtain ⟨g1, g2, g3, g4⟩ := h2 i hi
          refine ⟨g1, ?_, ?_, ?_⟩
          · rcases g2 with g2 | g2
            · simp at g2; exact Or.inr (by simp [g2])
            · exact Or.inr (by simp [g2])
          · intro s hs
            simp at hs
            subst hs
            exact hpa'.trans (g3 a rfl)
          · intro j hj hjp
            rcases List.mem_cons.1 hj with rfl | hj
            · exact g3 j rfl
            · exact g4 j hj hjp
    · rw [if_neg (by rw [startsWith_iff]; exact ha)]
      obtain ⟨h1, h2⟩ := ih start hstart
      refine ⟨?_, ?_⟩
      · rw [h1]; simp [ha]
      · intro i hi
        obtain ⟨g1, g2, g3, g4⟩ := h2 i hi
        refine ⟨g1, ?_, g3, ?_⟩
        · rcases g2 with g2 | g2
          · exact Or.inl g2
          · exact Or.inr (by simp [g2])
        · intro j hj hjp
          rcases List.mem_cons.1 hj with rfl | hj
          · exact absurd hjp ha
          · exact g4 j hj hjp

/-- C21: a directory (or a file, apart from its extension) is inside the filter exactly when
some include directory contains it that is deeper than every exclude directory containing
it. -/
theorem includes_iff_deepest (d : Directories) (path : AbsPath) :
    d.containsDir path = true ↔
      ∃ i ∈ d.include_, i <+: path ∧ ∀ e ∈ d.exclude, e <+: path → e.length < i.length := by
  unfold Directories.containsDir Directories.includesPath
  have h := chooseInclude_fold path d.include_ none (by simp)
  simp only at h
  change (chooseInclude path d.include_ = none ↔ _) ∧ _ at h
  obtain ⟨h1, h2⟩ := h
  cases hc : chooseInclude path d.include_ with
  | none =>
    have := (h1.1 hc).2
    simp only [Bool.false_eq_true, false_iff]
    rintro ⟨i, hi, hip, _⟩
    exact this i hi hip
  | some inc =>
    obtain ⟨g1, g2, _, g4⟩ := h2 inc hc
    simp at g2
    simp only [Bool.not_eq_true', List.any_eq_false, Bool.and_eq_true, startsWith_iff, not_and]
    constructor
    · intro hx
      refine ⟨inc, g2, g1, ?_⟩
      intro e he hep
      have := hx e he hep
      rcases List.prefix_or_prefix_of_prefix hep g1 with h' | h'
      · rcases Nat.lt_or_ge e.length inc.length with h'' | h''
        · exact h''
        · rw [h'.eq_of_length_le h''] at this
          exact absurd (List.prefix_refl _) this
      · exact absurd h' this
    · rintro ⟨i, hi, hip, hex⟩ e he hep hinc
      have h3 := g4 i hi hip
      have := hex e he hep
      have := h3.length_le
      have := hinc.length_le
      omega

/-- C21: a file is inside the filter exactly when its extension is listed and its path is
inside. -/
theorem contains_file_iff (d : Directories) (path : AbsPath) :
    d.containsFile path = true ↔ extension path ∈ d.extensions ∧
      ∃ i ∈ d.include_, i <+: path ∧ ∀ e ∈ d.exclude, e <+: path → e.length < i.length := by
  rw [← includes_iff_deepest]
  unfold Directories.containsFile Directories.containsDir
  by_cases h : d.extensions.all (fun it => it != extension path) = true
  · rw [if_pos h]
    simp only [Bool.false_eq_true, false_iff, not_and]
    intro hm
    have := List.all_eq_true.1 h _ hm
    simp at this
  · rw [if_neg h]
    have : extension path ∈ d.extensions := by
      simp only [List.all_eq_true, bne_iff_ne, ne_eq, Classical.not_forall, not_imp, Classical.not_not] at h
      obtain ⟨x, hx, he⟩ := h
      rw [← he]; exact hx
    simp [this]

/-- The name of the file is a non-empty stem, a dot and an extension without dots. -/
def HasExtension (path : AbsPath) (ext : Text) : Prop :=
  '.' ∉ ext ∧ ∃ dir stem, stem ≠ [] ∧ path = dir ++ [stem ++ '.' :: ext]

/-- The extension of a path is what follows the last dot of its name, if the name does not start
with that dot. -/
theorem extension_spec (path : AbsPath) (ext : Text) (h : HasExtension path ext) :
    extension path = ext := by
  obtain ⟨he, dir, stem, hs, rfl⟩ := h
  unfold extension
  simp only [List.getLast?_append, List.getLast?_singleton, Option.some_or,
    (Paths.beforeLastDot_some _ stem).2 ⟨ext, he, rfl⟩]
  cases stem with
  | nil => exact absurd rfl hs
  | cons c cs => simp

/-- All other paths have the empty extension. -/
theorem extension_none (path : AbsPath) (h : ∀ ext, ¬ HasExtension path ext) : extension path = [] := by
  unfold extension
  cases hl : path.getLast? with
  | none => rfl
  | some name =>
    simp only
    cases hb : Paths.beforeLastDot name with
    | none => rfl
    | some stem =>
      cases stem with
      | nil => rfl
      | cons c cs =>
        obtain ⟨ext, he, hn⟩ := (Paths.beforeLastDot_some _ _).1 hb
        have hne : path ≠ [] := by intro hp; rw [hp] at hl; cases hl
        refine absurd ⟨he, path.dropLast, c :: cs, by simp, ?_⟩ (h ext)
        rw [← hn]
        have := List.dropLast_concat_getLast hne
        rw [List.getLast?_eq_some_getLast hne] at hl
        cases hl
        exact this.symm

/-- C21: with non-empty listed extensions, a file is inside the filter exactly when its name ends
in one of them and its path is inside. -/
theorem contains_file_named (d : Directories) (path : AbsPath) (hx : [] ∉ d.extensions) :
    d.containsFile path = true ↔ (∃ ext ∈ d.extensions, HasExtension path ext) ∧
      ∃ i ∈ d.include_, i <+: path ∧ ∀ e ∈ d.exclude, e <+: path → e.length < i.length := by
  rw [contains_file_iff]
  refine and_congr_left fun _ => ⟨fun hm => ?_, ?_⟩
  · by_cases h : ∃ ext, HasExtension path ext
    · obtain ⟨ext, h⟩ := h
      rw [extension_spec path ext h] at hm
      exact ⟨ext, hm, h⟩
    · rw [extension_none path (fun ext he => h ⟨ext, he⟩)] at hm
      exact absurd hm hx
  · rintro ⟨ext, hm, h⟩
    rw [extension_spec path ext h]
    exact hm

/-- A file below a nested include inside an excluded directory is contained; one outside it is
not. -/
def sampleDirs : Directories :=
  ⟨["move".toList], [["a".toList], ["a".toList, "t".toList, "b".toList]], [["a".toList, "t".toList]]⟩

example : sampleDirs.containsFile ["a".toList, "t".toList, "b".toList, "x.move".toList] = true ∧
    sampleDirs.containsFile ["a".toList, "t".toList, "x.move".toList] = false ∧
    sampleDirs.containsFile ["a".toList, ".move".toList] = false ∧ [] ∉ sampleDirs.extensions := by decide

example : HasExtension ["a".toList, "x.y.move".toList] "move".toList :=
  ⟨by decide, ["a".toList], "x.y".toList, by decide, by decide⟩

/-- C21: a list of files contains exactly the files listed, and no directory; a set of directories contains what its filter
lets through. -/
theorem entry_contains (path : AbsPath) :
    (∀ fs, (Entry.files fs).containsFile path = true ↔ path ∈ fs) ∧
    (∀ fs, (Entry.files fs).containsDir path = false) ∧
    (∀ d, (Entry.directories d).containsFile path = true ↔ extension path ∈ d.extensions ∧
      ∃ i ∈ d.include_, i <+: path ∧ ∀ e ∈ d.exclude, e <+: path → e.length < i.length) ∧
    (∀ d, (Entry.directories d).containsDir path = true ↔
      ∃ i ∈ d.include_, i <+: path ∧ ∀ e ∈ d.exclude, e <+: path → e.length < i.length) := by
  refine ⟨fun fs => ?_, fun _ => rfl, fun d => contains_file_iff d path, fun d => includes_iff_deepest d path⟩
  simp only [Entry.containsFile, List.any_eq_true, beq_iff_eq]
  exact ⟨fun ⟨x, hx, e⟩ => e ▸ hx, fun h => ⟨path, h, rfl⟩⟩

example : (Entry.files [["a".toList, "b.move".toList]]).containsFile ["a".toList, "b.move".toList] = true ∧
    (Entry.files [["a".toList, "b.move".toList]]).containsFile ["a".toList] = false := by decide

end Verif.Loader
