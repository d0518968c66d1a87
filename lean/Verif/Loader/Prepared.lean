import Verif.Loader.Props

set_option autoImplicit false

/-!
C115: the prepared file sets of the loader, `/repo/crates/vfs/src/loader.rs:77-112, 183-194`.
-/

namespace Verif.Loader.Prepared

/-! ### Model -/

/-- `AbsPath::join` with a name of one component, or with an absolute path of one component, which replaces the base. -/
def join (base : AbsPath) : Text → AbsPath
  | '/' :: name => [name]
  | name => base ++ [name]

/-- `dirs`, loader.rs:191-194. -/
def dirs (base : AbsPath) (exclude : List Text) : Directories :=
  ⟨["rs".toList], [base], exclude.map (join base)⟩

/-- `Entry::rs_files_recursively`, loader.rs:86-88. -/
def rsFilesRecursively (base : AbsPath) : Entry := .directories (dirs base [".git".toList])

/-- `Entry::local_cargo_package`, loader.rs:98-100. -/
def localCargoPackage (base : AbsPath) : Entry := .directories (dirs base [".git".toList, "target".toList])

/-- `Entry::cargo_package_dependency`, loader.rs:110-112. -/
def cargoPackageDependency (base : AbsPath) : Entry :=
  .directories (dirs base [".git".toList, "/tests".toList, "/examples".toList, "/benches".toList])

/-! ### Specification -/

/-- The path is the directory or below it. -/
def Below (dir path : AbsPath) : Prop := dir <+: path

/-- A file with the extension in the directory, in none of the folders named directly in it. -/
def Sources (ext : Text) (base : AbsPath) (without : List Text) (path : AbsPath) : Prop :=
  HasExtension path ext ∧ Below base path ∧ ∀ name ∈ without, ¬ Below (base ++ [name]) path

/-! ### Theorems -/

theorem dirs_contains (base : AbsPath) (exclude : List Text) (path : AbsPath) :
    (Entry.directories (dirs base exclude)).containsFile path = true ↔
      HasExtension path "rs".toList ∧ Below base path ∧
      ∀ it ∈ exclude, join base it <+: path → (join base it).length < base.length := by
  have h := contains_file_named (dirs base exclude) path (by simp [dirs])
  simp only [Entry.containsFile]
  rw [h]
  simp only [dirs, List.mem_singleton, exists_eq_left, List.mem_map, forall_exists_index, and_imp,
    forall_apply_eq_imp_iff₂, Below]

theorem relative_not_shorter (base : AbsPath) (name : Text) (h : name.head? ≠ some '/') :
    join base name = base ++ [name] := by
  unfold join
  split
  · simp at h
  · rfl

/-- C115: what the first two sets contain, exactly. -/
theorem recursive_and_local_sets (base path : AbsPath) :
    ((rsFilesRecursively base).containsFile path = true ↔ Sources "rs".toList base [".git".toList] path) ∧
    ((localCargoPackage base).containsFile path = true ↔
      Sources "rs".toList base [".git".toList, "target".toList] path) := by
  have hg : join base ".git".toList = base ++ [".git".toList] := relative_not_shorter base _ (by decide)
  have ht : join base "target".toList = base ++ ["target".toList] := relative_not_shorter base _ (by decide)
  constructor
  · unfold rsFilesRecursively
    rw [dirs_contains]
    unfold Sources
    refine and_congr_right fun _ => and_congr_right fun _ => ?_
    simp only [List.mem_singleton, forall_eq, hg, List.length_append, List.length_singleton, Below]
    constructor
    · intro h hp; have := h hp; omega
    · intro h hp; exact absurd hp h
  · unfold localCargoPackage
    rw [dirs_contains]
    unfold Sources
    refine and_congr_right fun _ => and_congr_right fun _ => ?_
    simp only [List.mem_cons, List.not_mem_nil, or_false, forall_eq_or_imp, forall_eq, hg, ht, List.length_append,
      List.length_singleton, Below]
    constructor
    · rintro ⟨h1, h2⟩
      exact ⟨fun hp => by have := h1 hp; omega, fun hp => by have := h2 hp; omega⟩
    · rintro ⟨h1, h2⟩
      exact ⟨fun hp => absurd hp h1, fun hp => absurd hp h2⟩

/-- C115: the set for a dependency leaves out `.git` and, in place of the tests, examples and benchmarks of the
package, the folders of these names at the root of the file system. -/
theorem dependency_set (base path : AbsPath) :
    (cargoPackageDependency base).containsFile path = true ↔
      Sources "rs".toList base [".git".toList] path ∧
      ∀ name ∈ ["tests".toList, "examples".toList, "benches".toList], Below [name] path → 2 ≤ base.length := by
  have hg : join base ".git".toList = base ++ [".git".toList] := relative_not_shorter base _ (by decide)
  have h1 : join base "/tests".toList = ["tests".toList] := rfl
  have h2 : join base "/examples".toList = ["examples".toList] := rfl
  have h3 : join base "/benches".toList = ["benches".toList] := rfl
  unfold cargoPackageDependency
  rw [dirs_contains]
  unfold Sources
  simp only [List.mem_cons, List.not_mem_nil, or_false, forall_eq_or_imp, forall_eq, hg, h1, h2, h3, List.length_append,
    List.length_cons, List.length_nil, Below]
  constructor
  · rintro ⟨he, hb, g, a, b, c⟩
    refine ⟨⟨he, hb, fun hp => by have := g hp; omega⟩, fun hp => ?_, fun hp => ?_, fun hp => ?_⟩
    · have := a hp; omega
    · have := b hp; omega
    · have := c hp; omega
  · rintro ⟨⟨he, hb, g⟩, a, b, c⟩
    refine ⟨he, hb, fun hp => absurd hp g, fun hp => ?_, fun hp => ?_, fun hp => ?_⟩
    · have := a hp; omega
    · have := b hp; omega
    · have := c hp; omega

/-- The tests, examples and benchmarks of a dependency are in its set, wherever the dependency is. -/
theorem dependency_keeps_tests (base dir : AbsPath) (name stem : Text)
    (hn : name ∈ ["tests".toList, "examples".toList, "benches".toList]) (hs : stem ≠ []) (h2 : 2 ≤ base.length) :
    (cargoPackageDependency base).containsFile (base ++ [name] ++ dir ++ [stem ++ '.' :: "rs".toList]) = true := by
  rw [dependency_set]
  refine ⟨⟨⟨by decide, base ++ [name] ++ dir, stem, hs, rfl⟩, ⟨[name] ++ dir ++ [stem ++ '.' :: "rs".toList], by simp⟩, ?_⟩,
    fun _ _ _ => h2⟩
  intro x hx hb
  simp only [List.mem_singleton] at hx
  subst hx
  unfold Below at hb
  rw [List.append_assoc, List.append_assoc, List.prefix_append_right_inj] at hb
  simp only [List.cons_append, List.nil_append, List.cons_prefix_cons, List.nil_prefix, and_true] at hb
  subst hb
  revert hn; decide

/-- No set contains a Move file. -/
theorem no_set_has_move_files (base path : AbsPath) (h : HasExtension path "move".toList) :
    (rsFilesRecursively base).containsFile path = false ∧ (localCargoPackage base).containsFile path = false ∧
    (cargoPackageDependency base).containsFile path = false := by
  have hx : ¬ HasExtension path "rs".toList := by
    intro h'
    have h1 := extension_spec path _ h
    have h2 := extension_spec path _ h'
    rw [h1] at h2
    revert h2; decide
  refine ⟨?_, ?_, ?_⟩ <;> rw [Bool.eq_false_iff] <;> intro hc
  · exact hx ((dirs_contains _ _ _).1 hc).1
  · exact hx ((dirs_contains _ _ _).1 hc).1
  · exact hx ((dirs_contains _ _ _).1 hc).1

/-! Witnesses. -/

def home : AbsPath := ["home".toList, "dep".toList]

example : (rsFilesRecursively home).containsFile (home ++ ["lib.rs".toList]) = true := by decide
example : (rsFilesRecursively home).containsFile (home ++ [".git".toList, "lib.rs".toList]) = false := by decide
example : (localCargoPackage home).containsFile (home ++ ["target".toList, "lib.rs".toList]) = false := by decide
example : (localCargoPackage home).containsFile (home ++ ["src".toList, "target".toList, "lib.rs".toList]) = true := by
  decide
example : (cargoPackageDependency home).containsFile (home ++ ["tests".toList, "a.rs".toList]) = true := by decide
/-- At the root the exclusion works. -/
example : (cargoPackageDependency []).containsFile ["tests".toList, "a.rs".toList] = false := by decide
example : HasExtension (home ++ ["a.move".toList]) "move".toList := ⟨by decide, home, ['a'], by decide, rfl⟩
example : (localCargoPackage home).containsFile (home ++ ["a.move".toList]) = false := by decide

end Verif.Loader.Prepared
