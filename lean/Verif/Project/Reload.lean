import Verif.Project.Model

set_option autoImplicit false

/-!
C52: which file events reload the workspace.
-/

namespace Verif.Project

namespace Spec

/-- The path ends with these names. -/
def Ends (path : Path) (names : List String) : Prop :=
  ∃ dir, path = dir ++ names.map fun s => Comp.normal s.toList

/-- The name ends with `.rs` and is not just that. -/
def RustFile (name : Text) : Prop := ∃ stem, stem ≠ [] ∧ name = stem ++ ".rs".toList

/-- One of the directories whose files are targets by convention. -/
def TargetDir (dir : Path) : Prop :=
  Ends dir ["src", "bin"] ∨ Ends dir ["examples"] ∨ Ends dir ["tests"] ∨ Ends dir ["benches"]

/-- A file that is a target by convention. -/
def ImplicitTarget (path : Path) : Prop :=
  Ends path ["build.rs"] ∨ Ends path ["src", "main.rs"] ∨ Ends path ["src", "lib.rs"] ∨
  (∃ dir name, path = dir ++ [.normal name] ∧ RustFile name ∧ TargetDir dir) ∨
  (∃ dir sub, path = dir ++ [sub, .normal "main.rs".toList] ∧ TargetDir dir)

/-- A manifest or lock file of cargo. -/
def CargoManifest (path : Path) : Prop := Ends path ["Cargo.toml"] ∨ Ends path ["Cargo.lock"]

/-- A manifest of a Move project. -/
def DoveManifest (path : Path) : Prop := Ends path ["Dove.toml"]

end Spec

open Spec

theorem endsWith_iff (path : Path) (names : List String) : endsWith path names = true ↔ Ends path names := by
  unfold endsWith Ends
  rw [List.isSuffixOf_iff_suffix]
  constructor
  · rintro ⟨d, h⟩; exact ⟨d, h.symm⟩
  · rintro ⟨d, h⟩; exact ⟨d, h.symm⟩

theorem fileName_eq_iff (path : Path) (s : String) (hs : s.toList ≠ []) :
    fileName path = s.toList ↔ Ends path [s] := by
  unfold fileName Ends
  constructor
  · intro h
    split at h
    · next name hl =>
      obtain ⟨d, hd⟩ := List.getLast?_eq_some_iff.1 hl
      exact ⟨d, by rw [hd, h]; rfl⟩
    · exact absurd h.symm hs
  · rintro ⟨d, rfl⟩
    simp

theorem beforeLastDot_spec (t : Text) :
    (∀ p, beforeLastDot t = some p ↔ ∃ e, t = p ++ '.' :: e ∧ '.' ∉ e) ∧ (beforeLastDot t = none ↔ '.' ∉ t) := by
  induction t with
  | nil => simp [beforeLastDot]
  | cons c cs ih =>
    obtain ⟨ih1, ih2⟩ := ih
    cases hb : beforeLastDot cs with
    | some p' =>
      obtain ⟨e', he', hne'⟩ := (ih1 p').1 hb
      constructor
      · intro p
        simp only [beforeLastDot, hb, Option.some.injEq]
        constructor
        · rintro rfl; exact ⟨e', by rw [he']; rfl, hne'⟩
        · rintro ⟨e, he, hne⟩
          cases p with
          | nil =>
            simp only [List.nil_append, List.cons.injEq] at he
            exact absurd (by rw [← he.2, he']; simp) hne
          | cons x p =>
            simp only [List.cons_append, List.cons.injEq] at he
            have := (ih1 p).2 ⟨e, he.2, hne⟩
            rw [hb] at this
            rw [Option.some.inj this, he.1]
      · simp only [beforeLastDot, hb, reduceCtorEq, false_iff]
        intro h; apply h; rw [he']; simp
    | none =>
      have hno := ih2.1 hb
      constructor
      · intro p
        simp only [beforeLastDot, hb]
        constructor
        · intro h
          split at h
          · next hc => obtain rfl := Option.some.inj h; exact ⟨cs, by rw [hc]; rfl, hno⟩
          · cases h
        · rintro ⟨e, he, hne⟩
          cases p with
          | nil =>
            simp only [List.nil_append, List.cons.injEq] at he
            rw [if_pos he.1]
          | cons x p =>
            simp only [List.cons_append, List.cons.injEq] at he
            exact absurd (by rw [he.2]; simp) hno
      · simp only [beforeLastDot, hb]
        constructor
        · intro h
          split at h
          · cases h
          · next hc => simp [hno, Ne.symm hc]
        · intro h
          rw [if_neg]
          intro hc; apply h; simp [hc]

/-- The extension of a name is `rs` exactly for Rust files. -/
theorem extension_rs (path : Path) : extension path = "rs".toList ↔ RustFile (fileName path) := by
  unfold extension RustFile
  have hs := beforeLastDot_spec (fileName path)
  constructor
  · intro h
    split at h
    · simp at h
    · simp at h
    · next stem hst hb =>
      obtain ⟨e, he, _⟩ := (hs.1 stem).1 hb
      refine ⟨stem, fun hc => hst hc, ?_⟩
      rw [he] at h ⊢
      simp at h
      simp [h]
  · rintro ⟨stem, hne, he⟩
    have : beforeLastDot (fileName path) = some stem := (hs.1 stem).2 ⟨['r', 's'], he, by decide⟩
    rw [this]
    cases stem with
    | nil => exact absurd rfl hne
    | cons c st => simp only; rw [he]; simp

theorem targetDir_iff (dir : Path) : implicitTargetDirs.any (endsWith dir) = true ↔ TargetDir dir := by
  simp [implicitTargetDirs, TargetDir, endsWith_iff]

theorem parent_some {path dir : Path} : parent path = some dir ↔ ∃ c, path = dir ++ [c] := by
  unfold parent
  constructor
  · intro h
    split at h
    · cases h
    · next hne =>
      obtain rfl := Option.some.inj h
      exact ⟨path.getLast hne, (List.dropLast_concat_getLast hne).symm⟩
  · rintro ⟨c, rfl⟩; simp

theorem rust_of_ends {path : Path} {dir : List String} {s : String} {stem : Text}
    (h : Ends path (dir ++ [s])) (hs : s.toList = stem ++ ".rs".toList) (hne : stem ≠ []) :
    RustFile (fileName path) := by
  obtain ⟨d, rfl⟩ := h
  refine ⟨stem, hne, ?_⟩
  simp only [fileName, List.map_append, List.map_cons, List.map_nil, ← List.append_assoc, List.getLast?_concat]
  exact hs

/-- What reloads the workspace: any event on a manifest or lock file of cargo, and creation or deletion
of a file that cargo takes as a target. -/
theorem refresh_iff (path : Path) (kind : ChangeKind) :
    shouldRefreshForChange path kind = true ↔
      CargoManifest path ∨ (kind ≠ .modify ∧ ImplicitTarget path) := by
  unfold shouldRefreshForChange
  simp only
  split
  · next h =>
    rw [fileName_eq_iff path "Cargo.toml" (by decide), fileName_eq_iff path "Cargo.lock" (by decide)] at h
    simp only [true_iff]; exact .inl h
  · next h =>
    rw [fileName_eq_iff path "Cargo.toml" (by decide), fileName_eq_iff path "Cargo.lock" (by decide)] at h
    have hc : (CargoManifest path ∨ (kind ≠ .modify ∧ ImplicitTarget path)) ↔
        (kind ≠ .modify ∧ ImplicitTarget path) :=
      ⟨fun h' => h'.resolve_left h, .inr⟩
    rw [hc]
    split
    · next hk => simp [hk]
    · next hk =>
      have hc2 : (kind ≠ .modify ∧ ImplicitTarget path) ↔ ImplicitTarget path := ⟨And.right, fun h => ⟨hk, h⟩⟩
      rw [hc2]
      split
      · next hx =>
        simp only [Bool.false_eq_true, false_iff]
        intro ht
        apply hx
        rw [extension_rs]
        rcases ht with h | h | h | ⟨dir, name, rfl, hr, _⟩ | ⟨dir, sub, rfl, _⟩
        · exact rust_of_ends (dir := []) h (stem := "build".toList) rfl (by decide)
        · exact rust_of_ends (dir := ["src"]) h (stem := "main".toList) rfl (by decide)
        · exact rust_of_ends (dir := ["src"]) h (stem := "lib".toList) rfl (by decide)
        · simpa [fileName] using hr
        · exact ⟨"main".toList, by decide, by simp [fileName]⟩
      · next hx =>
        have hx := (extension_rs path).1 (Classical.not_not.1 hx)
        split
        · next hf =>
          simp only [implicitTargetFiles, List.any_cons, List.any_nil, Bool.or_false, Bool.or_eq_true, endsWith_iff] at hf
          simp only [true_iff]
          rcases hf with h | h | h
          · exact .inl h
          · exact .inr (.inl h)
          · exact .inr (.inr (.inl h))
        · next hf =>
          simp only [implicitTargetFiles, List.any_cons, List.any_nil, Bool.or_false, Bool.or_eq_true, endsWith_iff, not_or] at hf
          have hsplit : ImplicitTarget path ↔
              ((∃ dir name, path = dir ++ [.normal name] ∧ RustFile name ∧ TargetDir dir) ∨
               (∃ dir sub, path = dir ++ [sub, .normal "main.rs".toList] ∧ TargetDir dir)) :=
            ⟨fun h => ((h.resolve_left hf.1).resolve_left hf.2.1).resolve_left hf.2.2,
              fun h => .inr (.inr (.inr h))⟩
          rw [hsplit]
          split
          · next hp =>
            have : path = [] := by unfold parent at hp; split at hp; assumption; cases hp
            subst this
            simp
          · next dir hp =>
            obtain ⟨c, rfl⟩ := parent_some.1 hp
            have hcn : ∃ name, c = .normal name ∧ RustFile name := by
              cases c with
              | normal name => exact ⟨name, rfl, by simpa [fileName] using hx⟩
              | parentDir =>
                obtain ⟨st, hst, he⟩ := hx
                simp [fileName] at he
            obtain ⟨name, rfl, hrn⟩ := hcn
            have hname : fileName (dir ++ [.normal name]) = name := by simp [fileName]
            split
            · next ht =>
              rw [targetDir_iff] at ht
              simp only [true_iff]
              exact .inl ⟨dir, name, rfl, hrn, ht⟩
            · next ht =>
              rw [targetDir_iff] at ht
              have h1 : ¬ ∃ dir' name', dir ++ [Comp.normal name] = dir' ++ [.normal name'] ∧ RustFile name' ∧ TargetDir dir' := by
                rintro ⟨d', n', he, _, htd⟩
                have := List.append_inj' he rfl
                exact ht (by rw [this.1]; exact htd)
              rw [hname]
              split
              · next hm =>
                split
                · next hp2 =>
                  have : dir = [] := by unfold parent at hp2; split at hp2; assumption; cases hp2
                  subst this
                  simp only [Bool.false_eq_true, false_iff, not_or]
                  refine ⟨h1, ?_⟩
                  rintro ⟨d', sub, he, _⟩
                  have := congrArg List.length he
                  simp at this
                · next gp hp2 =>
                  obtain ⟨sub, rfl⟩ := parent_some.1 hp2
                  rw [targetDir_iff]
                  constructor
                  · intro htd; exact .inr ⟨gp, sub, by simp [hm], htd⟩
                  · rintro (h | ⟨d', sub', he, htd⟩)
                    · exact absurd h h1
                    · have he' : gp ++ [sub, Comp.normal name] = d' ++ [sub', .normal "main.rs".toList] := by
                        simpa using he
                      have := List.append_inj' he' rfl
                      rw [this.1]; exact htd
              · next hm =>
                simp only [Bool.false_eq_true, false_iff, not_or]
                refine ⟨h1, ?_⟩
                rintro ⟨d', sub, he, _⟩
                have he' : dir ++ [Comp.normal name] = (d' ++ [sub]) ++ [.normal "main.rs".toList] := by simpa using he
                have := List.append_inj' he' rfl
                simp only [List.cons.injEq, Comp.normal.injEq, and_true] at this
                exact hm this.2

/-- C52, the part that holds: apart from manifests, an event reloads the workspace exactly if it creates
or deletes a target file.  Missing: manifests are those of cargo instead of `Dove.toml`, and the targets
are Rust files, see `dove_manifest_ignored`. -/
theorem reload_events_partial (path : Path) (kind : ChangeKind) (hm : ¬ CargoManifest path) :
    shouldRefreshForChange path kind = true ↔ kind ≠ .modify ∧ ImplicitTarget path := by
  rw [refresh_iff]
  exact ⟨fun h => h.resolve_left hm, .inr⟩

/-- No event on the manifest of a Move project reloads the workspace. -/
theorem dove_manifest_ignored (path : Path) (kind : ChangeKind) (h : DoveManifest path) :
    shouldRefreshForChange path kind = false := by
  have hname : fileName path = "Dove.toml".toList := (fileName_eq_iff path "Dove.toml" (by decide)).2 h
  cases hs : shouldRefreshForChange path kind with
  | false => rfl
  | true =>
    exfalso
    unfold shouldRefreshForChange at hs
    simp only [hname] at hs
    rw [if_neg (by decide)] at hs
    split at hs
    · cases hs
    · have he : extension path ≠ "rs".toList := by
        rw [Ne, extension_rs, hname]
        rintro ⟨st, _, hst⟩
        have := congrArg List.reverse hst
        simp at this
      rw [if_pos he] at hs
      cases hs

/-- No event on a Move file reloads the workspace. -/
theorem move_file_ignored (path : Path) (kind : ChangeKind) (name : Text)
    (h : ∃ dir, path = dir ++ [.normal (name ++ ".move".toList)]) :
    shouldRefreshForChange path kind = false := by
  obtain ⟨dir, rfl⟩ := h
  have hname : fileName (dir ++ [Comp.normal (name ++ ".move".toList)]) = name ++ ".move".toList := by simp [fileName]
  have hlast : ∀ (s : Text), (name ++ ".move".toList) = s → s.getLast? = some 'e' := by
    rintro s rfl; simp
  unfold shouldRefreshForChange
  simp only [hname]
  rw [if_neg]
  · split
    · rfl
    · rw [if_pos]
      rw [Ne, extension_rs, hname]
      rintro ⟨st, _, hst⟩
      have := hlast _ hst
      simp at this
  · rintro (h | h)
    · have := hlast _ h; simp at this
    · have := hlast _ h; simp at this

example : DoveManifest [.normal ['p'], .normal "Dove.toml".toList] := ⟨[.normal ['p']], rfl⟩

example : ImplicitTarget [.normal ['p'], .normal "tests".toList, .normal "t.rs".toList] ∧
    shouldRefreshForChange [.normal ['p'], .normal "tests".toList, .normal "t.rs".toList] .create = true ∧
    shouldRefreshForChange [.normal ['p'], .normal "tests".toList, .normal "t.rs".toList] .modify = false ∧
    shouldRefreshForChange [.normal ['p'], .normal "Cargo.toml".toList] .modify = true :=
  ⟨.inr (.inr (.inr (.inl ⟨[.normal ['p'], .normal "tests".toList], "t.rs".toList, rfl,
      ⟨['t'], by decide, rfl⟩, .inr (.inr (.inl ⟨[.normal ['p']], rfl⟩))⟩))),
    by decide, by decide, by decide⟩

end Verif.Project
