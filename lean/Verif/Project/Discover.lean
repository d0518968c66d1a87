import Verif.Project.Model

set_option autoImplicit false

/-!
C42: which manifests are discovered.
-/

namespace Verif.Project

namespace Spec

/-- The manifest of a directory. -/
def manifestOf (dir : Path) : Path := dir ++ [.normal "Dove.toml".toList]

/-- `m` is the manifest of the nearest of the directory and its ancestors that has one. -/
def Nearest (fs : FileSystem) (dir m : Path) : Prop :=
  ∃ a, a <+: dir ∧ m = manifestOf a ∧ fs.exists_ (manifestOf a) = true ∧
    ∀ a', a' <+: dir → fs.exists_ (manifestOf a') = true → a' <+: a

/-- Neither the directory nor an ancestor has a manifest. -/
def NoneAbove (fs : FileSystem) (dir : Path) : Prop :=
  ∀ a, a <+: dir → fs.exists_ (manifestOf a) = false

/-- `m` is the manifest of an entry of the directory. -/
def InChild (fs : FileSystem) (dir : Path) (entries : List (Option Text)) (m : Path) : Prop :=
  ∃ name, some name ∈ entries ∧ m = manifestOf (dir ++ [.normal name]) ∧ fs.exists_ m = true

end Spec

open Spec

theorem manifestPath_join (p : Path) (n : Text) : manifestPath (join p n) = some (join p n) := by
  simp [manifestPath, parent, join]

theorem join_dove (p : Path) : join p doveToml = manifestOf p := rfl

theorem parentLoop_spec (fs : FileSystem) (path : Path) (n : Nat) (hn : n ≤ path.length) :
    (∀ m, parentLoop fs doveToml path n = some m → ∃ k, k ≤ n ∧ m = manifestOf (path.take k) ∧
      fs.exists_ (manifestOf (path.take k)) = true ∧
      ∀ j, k < j → j ≤ n → fs.exists_ (manifestOf (path.take j)) = false) ∧
    (parentLoop fs doveToml path n = none → ∀ j, j ≤ n → fs.exists_ (manifestOf (path.take j)) = false) := by
  induction n with
  | zero =>
    constructor
    · intro m hm
      simp only [parentLoop] at hm
      split at hm
      · next h =>
        obtain rfl := Option.some.inj hm
        refine ⟨0, Nat.le_refl _, rfl, ?_, by omega⟩
        rw [join_dove] at h
        exact (Bool.and_eq_true_iff.1 h).1
      · cases hm
    · intro hm j hj
      obtain rfl : j = 0 := by omega
      simp only [parentLoop] at hm
      split at hm
      · cases hm
      · next h =>
        rw [manifestPath_join, join_dove] at h
        simpa using h
  | succ n ih =>
    have ih := ih (by omega)
    constructor
    · intro m hm
      simp only [parentLoop] at hm
      split at hm
      · next h =>
        obtain rfl := Option.some.inj hm
        refine ⟨n + 1, Nat.le_refl _, rfl, ?_, by omega⟩
        rw [join_dove] at h
        exact (Bool.and_eq_true_iff.1 h).1
      · next h =>
        rw [manifestPath_join, join_dove] at h
        obtain ⟨k, h1, h2, h3, h4⟩ := ih.1 m hm
        refine ⟨k, by omega, h2, h3, ?_⟩
        intro j hj1 hj2
        by_cases hj : j = n + 1
        · subst hj; simpa using h
        · exact h4 j hj1 (by omega)
    · intro hm j hj
      simp only [parentLoop] at hm
      split at hm
      · cases hm
      · next h =>
        rw [manifestPath_join, join_dove] at h
        by_cases hj : j = n + 1
        · subst hj; simpa using h
        · exact ih.2 hm j (by omega)

theorem nearest_of_loop {fs : FileSystem} {path m : Path}
    (h : parentLoop fs doveToml path path.length = some m) : Nearest fs path m := by
  obtain ⟨k, hk, rfl, h3, h4⟩ := (parentLoop_spec fs path path.length (Nat.le_refl _)).1 m h
  refine ⟨path.take k, List.take_prefix _ _, rfl, h3, ?_⟩
  intro a' ha' he
  obtain ⟨r, hr⟩ := ha'
  have e : a' = path.take a'.length := by rw [← hr]; simp
  have hle : a'.length ≤ path.length := by rw [← hr]; simp
  by_cases hlt : k < a'.length
  · have := h4 a'.length hlt hle
    rw [← e, he] at this; cases this
  · rw [e]
    have : path.take a'.length = (path.take k).take a'.length := by
      rw [List.take_take]; congr 1; omega
    rw [this]; exact List.take_prefix _ _

theorem none_of_loop {fs : FileSystem} {path : Path}
    (h : parentLoop fs doveToml path path.length = none) : NoneAbove fs path := by
  intro a ⟨r, hr⟩
  have e : a = path.take a.length := by rw [← hr]; simp
  have hle : a.length ≤ path.length := by rw [← hr]; simp
  rw [e]
  exact (parentLoop_spec fs path path.length (Nat.le_refl _)).2 h _ hle

theorem not_both {fs : FileSystem} {path m : Path} (h : Nearest fs path m) (hn : NoneAbove fs path) : False := by
  obtain ⟨a, h1, _, h3, _⟩ := h
  rw [hn a h1] at h3; cases h3

theorem nearest_unique {fs : FileSystem} {path m m' : Path} (h : Nearest fs path m) (h' : Nearest fs path m') :
    m = m' := by
  obtain ⟨a, h1, rfl, h3, h4⟩ := h
  obtain ⟨a', h1', rfl, h3', h4'⟩ := h'
  have e1 := h4 a' h1' h3'
  have e2 := h4' a h1 h3
  rw [List.IsPrefix.eq_of_length e1 (Nat.le_antisymm e1.length_le e2.length_le)]

theorem fileName_ne {dir : Path} {n : Text} (h : dir.getLast? ≠ some (.normal n)) (hn : n ≠ []) :
    fileName dir ≠ n := by
  intro he
  unfold fileName at he
  split at he
  · next name hl => exact h (by rw [hl, he])
  · exact hn he.symm

theorem findInParentDirs_eq (fs : FileSystem) (dir : Path)
    (hd : dir.getLast? ≠ some (.normal "Dove.toml".toList)) :
    findInParentDirs fs dir doveToml = parentLoop fs doveToml dir dir.length := by
  unfold findInParentDirs
  rw [if_neg fun h => fileName_ne hd (by decide) h.1]

/-- C42, discovery upwards: if the directory or an ancestor has a manifest, exactly the nearest one is
discovered. -/
theorem discovers_nearest (fs : FileSystem) (dir m : Path)
    (hd : dir.getLast? ≠ some (.normal "Dove.toml".toList)) (h : Nearest fs dir m) :
    discover fs dir = some [m] := by
  unfold discover
  rw [findInParentDirs_eq fs dir hd]
  cases hl : parentLoop fs doveToml dir dir.length with
  | none => exact (not_both h (none_of_loop hl)).elim
  | some m' => rw [nearest_unique h (nearest_of_loop hl)]

/-- C42, discovery downwards: only if neither the directory nor an ancestor has a manifest, those of the
entries of the directory are discovered, in the order of the entries. -/
theorem discovers_children (fs : FileSystem) (dir : Path)
    (hd : dir.getLast? ≠ some (.normal "Dove.toml".toList)) (h : NoneAbove fs dir) :
    (fs.readDir dir = none → discover fs dir = none) ∧
    (∀ entries, fs.readDir dir = some entries → ∃ found, discover fs dir = some found ∧
      (∀ m, m ∈ found ↔ InChild fs dir entries m) ∧
      List.Sublist found (entries.filterMap fun e => e.map fun name => manifestOf (dir ++ [.normal name]))) := by
  have hf : discover fs dir = match fs.readDir dir with
      | none => none
      | some entities => some (findInChildDirs fs dir entities) := by
    unfold discover
    rw [findInParentDirs_eq fs dir hd]
    cases hl : parentLoop fs doveToml dir dir.length with
    | none => rfl
    | some m' => exact (not_both (nearest_of_loop hl) h).elim
  constructor
  · intro hr; rw [hf, hr]
  · intro entries hr
    refine ⟨findInChildDirs fs dir entries, by rw [hf, hr], ?_, ?_⟩
    · intro m
      simp only [findInChildDirs, List.mem_filterMap, List.mem_filter, List.mem_map, id]
      constructor
      · rintro ⟨m', ⟨⟨name, ⟨o, ho, rfl⟩, rfl⟩, he⟩, hm⟩
        rw [manifestPath_join] at hm
        obtain rfl := Option.some.inj hm
        exact ⟨name, ho, rfl, he⟩
      · rintro ⟨name, ho, rfl, he⟩
        exact ⟨_, ⟨⟨name, ⟨some name, ho, rfl⟩, rfl⟩, he⟩, manifestPath_join _ _⟩
    · simp only [findInChildDirs]
      have e : ∀ l : List Text, (((l.map fun it => join (join dir it) doveToml).filter fs.exists_).filterMap manifestPath)
          = (l.map fun it => join (join dir it) doveToml).filter fs.exists_ := by
        intro l
        induction l with
        | nil => rfl
        | cons x l ih =>
          simp only [List.map_cons, List.filter_cons]
          split
          · rw [List.filterMap_cons, manifestPath_join]; simp only [ih]
          · exact ih
      rw [e]
      have e2 : (entries.filterMap id).map (fun it => join (join dir it) doveToml)
          = entries.filterMap (fun e => e.map fun name => manifestOf (dir ++ [.normal name])) := by
        rw [List.map_filterMap]; rfl
      rw [e2]
      exact List.filter_sublist

/-- One of the two cases always applies, and not both. -/
theorem nearest_or_none (fs : FileSystem) (dir : Path) :
    ((∃ m, Nearest fs dir m) ∨ NoneAbove fs dir) ∧ ¬ ((∃ m, Nearest fs dir m) ∧ NoneAbove fs dir) := by
  constructor
  · cases hl : parentLoop fs doveToml dir dir.length with
    | none => exact .inr (none_of_loop hl)
    | some m => exact .inl ⟨m, nearest_of_loop hl⟩
  · rintro ⟨⟨m, hm⟩, hn⟩; exact not_both hm hn

/-- A path that itself has the name of a manifest is taken as the manifest, without asking the file
system. -/
theorem manifest_itself (fs : FileSystem) (dir : Path) : discover fs (manifestOf dir) = some [manifestOf dir] := by
  unfold discover findInParentDirs
  rw [if_pos]
  refine ⟨?_, ?_⟩
  · simp only [fileName, manifestOf, List.getLast?_concat]; rfl
  · simp [manifestPath, parent, manifestOf]

/-- A single project is found exactly if exactly one manifest is discovered. -/
theorem single_iff (fs : FileSystem) (dir m : Path) :
    discoverSingle fs dir = some m ↔ discover fs dir = some [m] := by
  unfold discoverSingle
  cases hd : discover fs dir with
  | none => simp
  | some l =>
    rcases List.eq_nil_or_concat l with rfl | ⟨l', x, rfl⟩
    · simp
    · cases l' with
      | nil => simp
      | cons y l' =>
        rw [List.concat_eq_append]
        simp only [List.getLast?_concat, List.dropLast_concat]
        simp

/-- A given file is taken as a manifest exactly if it is the manifest of some directory. -/
theorem manifest_file_iff (file m : Path) : fromManifestFile file = some m ↔ m = file ∧ ∃ dir, file = manifestOf dir := by
  unfold fromManifestFile manifestPath parent
  rcases List.eq_nil_or_concat file with rfl | ⟨dir, c, rfl⟩
  · simp [manifestOf]
  · rw [List.concat_eq_append]
    simp only [fileName, List.getLast?_concat, manifestOf, List.append_eq_nil_iff, List.cons_ne_self, and_false, if_false,
      Option.isNone_some, Bool.false_eq_true]
    cases c with
    | parentDir =>
      rw [if_neg (by decide)]
      constructor
      · intro h; cases h
      · rintro ⟨-, d, h⟩
        have := List.append_inj_right' h rfl
        cases this
    | normal name =>
      simp only
      by_cases h : name = doveToml
      · subst h
        rw [if_pos rfl]
        constructor
        · intro h; cases h; exact ⟨rfl, dir, rfl⟩
        · rintro ⟨rfl, -⟩; rfl
      · rw [if_neg h]
        constructor
        · intro h; cases h
        · rintro ⟨-, d, h2⟩
          have := List.append_inj_right' h2 rfl
          cases this
          exact absurd rfl h

example : fromManifestFile [.normal "a".toList, .normal "Dove.toml".toList] =
    some [.normal "a".toList, .normal "Dove.toml".toList] ∧ fromManifestFile [.normal "a".toList] = none := by decide

theorem pathLe_trans (a b c : Path) (h1 : pathLe a b = true) (h2 : pathLe b c = true) : pathLe a c = true := by
  simp only [pathLe, decide_eq_true_eq] at *
  exact List.le_trans h1 h2

theorem pathLe_total (a b : Path) : (pathLe a b || pathLe b a) = true := by
  simp only [pathLe, Bool.or_eq_true, decide_eq_true_eq]
  exact List.le_total _ _

theorem sortKey_inj {a b : Path} (h : sortKey a = sortKey b) : a = b := by
  induction a generalizing b with
  | nil => cases b with
    | nil => rfl
    | cons y b => simp [sortKey] at h
  | cons x a ih =>
    cases b with
    | nil => simp [sortKey] at h
    | cons y b =>
      simp only [sortKey, List.map_cons, List.cons.injEq] at h
      have h2 := ih (b := b) h.2
      have h1 := h.1
      rw [h2]
      cases x <;> cases y
      · rfl
      · simp at h1
      · simp at h1
      · next n m =>
        simp only [List.cons.injEq, true_and] at h1
        have hinj : ∀ (n m : Text), n.map Char.toNat = m.map Char.toNat → n = m := by
          intro n
          induction n with
          | nil => intro m hm; cases m with
            | nil => rfl
            | cons _ _ => simp at hm
          | cons c n ihn =>
            intro m hm
            cases m with
            | nil => simp at hm
            | cons d m =>
              simp only [List.map_cons, List.cons.injEq] at hm
              have : c = d := by
                apply Char.ext
                apply UInt32.toNat_inj.1
                exact hm.1
              rw [this, ihn m hm.2]
        rw [hinj n m h1]

/-- C42, many directories: each discovered manifest once, sorted, whatever the iteration order of the
set; directories whose discovery fails are skipped. -/
theorem discover_all_spec (fs : FileSystem) (iter : List Path → List Path)
    (hiter : ∀ l, (iter l).Nodup ∧ ∀ m, m ∈ iter l ↔ m ∈ l) (dirs : List Path) :
    (discoverAll fs iter dirs).Nodup ∧
    (discoverAll fs iter dirs).Pairwise (fun a b => sortKey a < sortKey b) ∧
    (∀ m, m ∈ discoverAll fs iter dirs ↔ ∃ dir ∈ dirs, ∃ found, discover fs dir = some found ∧ m ∈ found) := by
  have hp := List.mergeSort_perm (iter ((dirs.filterMap (discover fs)).flatten)) pathLe
  have hn : (discoverAll fs iter dirs).Nodup := hp.nodup_iff.2 (hiter _).1
  refine ⟨hn, ?_, ?_⟩
  · have hs := List.pairwise_mergeSort pathLe_trans pathLe_total (iter ((dirs.filterMap (discover fs)).flatten))
    have := List.Pairwise.and hs hn
    refine this.imp ?_
    intro a b ⟨h1, h2⟩
    simp only [pathLe, decide_eq_true_eq] at h1
    rcases List.le_iff_lt_or_eq.1 h1 with h | h
    · exact h
    · exact absurd (sortKey_inj h) h2
  · intro m
    unfold discoverAll
    rw [hp.mem_iff, (hiter _).2]
    simp only [List.mem_flatten, List.mem_filterMap]
    constructor
    · rintro ⟨l, ⟨dir, hd, he⟩, hm⟩; exact ⟨dir, hd, l, he, hm⟩
    · rintro ⟨dir, hd, l, he, hm⟩; exact ⟨l, ⟨dir, hd, he⟩, hm⟩

/-- The iteration order of the set does not show in the result. -/
theorem discover_all_deterministic (fs : FileSystem) (iter iter' : List Path → List Path)
    (hiter : ∀ l, (iter l).Nodup ∧ ∀ m, m ∈ iter l ↔ m ∈ l)
    (hiter' : ∀ l, (iter' l).Nodup ∧ ∀ m, m ∈ iter' l ↔ m ∈ l) (dirs : List Path) :
    discoverAll fs iter dirs = discoverAll fs iter' dirs := by
  have h1 := discover_all_spec fs iter hiter dirs
  have h2 := discover_all_spec fs iter' hiter' dirs
  have hperm : (discoverAll fs iter dirs).Perm (discoverAll fs iter' dirs) :=
    (List.perm_ext_iff_of_nodup h1.1 h2.1).2 fun m => (h1.2.2 m).trans (h2.2.2 m).symm
  refine List.Perm.eq_of_pairwise (le := fun a b => sortKey a < sortKey b) ?_ h1.2.1 h2.2.1 hperm
  intro a b _ _ hab hba
  exact absurd hab (List.lt_asymm hba)

/-- A file system with the manifests of `/w`, `/w/a`, `/v/x` and `/v/y`. -/
def sampleFs : FileSystem where
  exists_ p := p = manifestOf [.normal ['w']] || p = manifestOf [.normal ['w'], .normal ['a']]
    || p = manifestOf [.normal ['v'], .normal ['x']] || p = manifestOf [.normal ['v'], .normal ['y']]
  readDir p := if p = [.normal ['v']] then some [some ['y'], none, some ['z'], some ['x']] else none

example :
    discover sampleFs [.normal ['w'], .normal ['a'], .normal ['b']] = some [manifestOf [.normal ['w'], .normal ['a']]] ∧
    discover sampleFs [.normal ['w'], .normal ['c']] = some [manifestOf [.normal ['w']]] ∧
    discover sampleFs [.normal ['v']] = some [manifestOf [.normal ['v'], .normal ['y']], manifestOf [.normal ['v'], .normal ['x']]] ∧
    discover sampleFs [.normal ['u']] = none := by decide

example : Nearest sampleFs [.normal ['w'], .normal ['a'], .normal ['b']] (manifestOf [.normal ['w'], .normal ['a']]) := by
  refine ⟨[.normal ['w'], .normal ['a']], ⟨[.normal ['b']], rfl⟩, rfl, by decide, ?_⟩
  intro a' ha' he
  simp only [sampleFs, Bool.or_eq_true, decide_eq_true_eq, manifestOf, List.append_cancel_right_eq] at he
  rcases he with ((rfl | rfl) | rfl) | rfl
  · exact ⟨[.normal ['a']], rfl⟩
  · exact List.prefix_refl _
  · obtain ⟨r, hr⟩ := ha'; simp at hr
  · obtain ⟨r, hr⟩ := ha'; simp at hr

/-- With `..` in a path its prefixes are not its ancestors: discovery from `/w/a/..`, which is `/w`,
finds the manifest of the subdirectory `/w/a`. -/
theorem parent_component_finds_child : let fs := { sampleFs with
      exists_ := fun p => p = manifestOf [.normal ['w'], .normal ['a']] || p = manifestOf [.normal ['w']] }
    discover fs [.normal ['w'], .normal ['a'], .parentDir] = some [manifestOf [.normal ['w'], .normal ['a']]] := by
  decide

end Verif.Project
