import Verif.Project.StartupModel
import Verif.Project.Discover

set_option autoImplicit false

/-!
C73: what the server takes from the client's first message.
-/

namespace Verif.Project.Startup

namespace Spec

/-- The URL denotes this absolute directory. -/
def Denotes (toFilePath : Text → Option FilePath) (uri : Text) (dir : Path) : Prop :=
  toFilePath uri = some (.absolute dir)

/-- The client offers to count columns in bytes. -/
def OffersUtf8 (params : InitializeParams) : Prop :=
  ∃ encodings, params.capabilities.offsetEncoding = some encodings ∧ "utf-8".toList ∈ encodings

/-- The directory that stands for the client's root: the one its root URL denotes, else the working
directory. -/
def IsRoot (toFilePath : Text → Option FilePath) (cwd : Option Path) (params : InitializeParams) (dir : Path) : Prop :=
  (∃ uri, params.rootUri = some uri ∧ Denotes toFilePath uri dir) ∨
  ((∀ uri, params.rootUri = some uri → ∀ d, ¬ Denotes toFilePath uri d) ∧ cwd = some dir)

/-- A directory in which projects are searched: a workspace folder, or the root if no workspace folder is a
directory. -/
def IsSearched (toFilePath : Text → Option FilePath) (cwd : Option Path) (params : InitializeParams) (dir : Path) : Prop :=
  (∃ folders, params.workspaceFolders = some folders ∧ ∃ uri ∈ folders, Denotes toFilePath uri dir) ∨
  ((∀ folders, params.workspaceFolders = some folders → ∀ uri ∈ folders, ∀ d, ¬ Denotes toFilePath uri d) ∧
    IsRoot toFilePath cwd params dir)

end Spec

open _root_.Verif.Project.Startup.Spec

theorem folderPath_iff (toFilePath : Text → Option FilePath) (uri : Text) (dir : Path) :
    folderPath toFilePath uri = some dir ↔ Denotes toFilePath uri dir := by
  unfold folderPath Denotes
  cases toFilePath uri with
  | none => simp
  | some p => cases p <;> simp [absPathBuf]

theorem folderPath_none (toFilePath : Text → Option FilePath) (uri : Text) :
    folderPath toFilePath uri = none ↔ ∀ d, ¬ Denotes toFilePath uri d := by
  constructor
  · intro h d hd
    rw [(folderPath_iff ..).2 hd] at h
    cases h
  · intro h
    cases hf : folderPath toFilePath uri with
    | none => rfl
    | some d => exact absurd ((folderPath_iff ..).1 hf) (h d)

theorem rootPath_iff (toFilePath : Text → Option FilePath) (cwd : Option Path) (params : InitializeParams) (dir : Path) :
    rootPath toFilePath cwd params = some dir ↔ IsRoot toFilePath cwd params dir := by
  unfold rootPath IsRoot
  cases hr : params.rootUri with
  | none => simp
  | some uri =>
    cases hf : folderPath toFilePath uri with
    | some d =>
      have hd := (folderPath_iff ..).1 hf
      simp only [Option.bind_some, hf, Option.some.injEq]
      constructor
      · rintro rfl; exact .inl ⟨uri, rfl, hd⟩
      · rintro (⟨u, rfl, h⟩ | ⟨h, _⟩)
        · exact Option.some.inj (hf.symm.trans ((folderPath_iff ..).2 h))
        · exact absurd hd (h uri rfl d)
    | none =>
      have hd := (folderPath_none ..).1 hf
      simp only [Option.bind_some, hf, Option.some.injEq]
      constructor
      · intro h; exact .inr ⟨fun u hu => hu ▸ hd, h⟩
      · rintro (⟨u, rfl, h⟩ | ⟨_, h⟩)
        · exact absurd h (hd dir)
        · exact h

theorem workspaceRoots_spec (toFilePath : Text → Option FilePath) (cwd : Option Path) (config : Config)
    (params : InitializeParams) (h : IsRoot toFilePath cwd params config.rootPath) :
    workspaceRoots toFilePath config params ≠ [] ∧
    ∀ dir, dir ∈ workspaceRoots toFilePath config params ↔ IsSearched toFilePath cwd params dir := by
  have hroot : ∀ dir, IsRoot toFilePath cwd params dir ↔ dir = config.rootPath := by
    intro dir
    rw [← rootPath_iff] at h ⊢
    rw [h, Option.some.injEq]
    exact eq_comm
  unfold workspaceRoots IsSearched
  cases hw : params.workspaceFolders with
  | none => simp [hroot]
  | some folders =>
    have hmem : ∀ dir, dir ∈ folders.filterMap (folderPath toFilePath) ↔ ∃ uri ∈ folders, Denotes toFilePath uri dir := by
      intro dir
      simp only [List.mem_filterMap, folderPath_iff]
    cases hl : folders.filterMap (folderPath toFilePath) with
    | nil =>
      have hno : ∀ uri ∈ folders, ∀ d, ¬ Denotes toFilePath uri d := by
        intro uri hu d hd
        have := (hmem d).2 ⟨uri, hu, hd⟩
        rw [hl] at this
        cases this
      simp only [Option.map_some, hl, List.isEmpty_nil, Option.filter, Option.some.injEq]
      refine ⟨by simp, fun dir => ?_⟩
      constructor
      · intro hd
        refine .inr ⟨fun f hf => hf ▸ hno, (hroot dir).2 (by simpa using hd)⟩
      · rintro (⟨f, rfl, u, hu, hd⟩ | ⟨_, hd⟩)
        · exact absurd hd (hno u hu dir)
        · simpa using (hroot dir).1 hd
    | cons d ds =>
      simp only [Option.map_some, hl, List.isEmpty_cons, Option.filter, Option.some.injEq]
      refine ⟨by simp, fun dir => ?_⟩
      have hm := hmem dir
      rw [hl] at hm
      constructor
      · intro hd
        exact .inl ⟨folders, rfl, hm.1 (by simpa using hd)⟩
      · rintro (⟨f, rfl, hd⟩ | ⟨hno, _⟩)
        · simpa using hm.2 hd
        · have hd : d ∈ folders.filterMap (folderPath toFilePath) := by rw [hl]; simp
          obtain ⟨u, hu, hx⟩ := (hmem d).1 hd
          exact absurd hx (hno folders rfl u hu d)

theorem supportsUtf8_iff (params : InitializeParams) :
    supportsUtf8 params.capabilities = true ↔ OffersUtf8 params := by
  unfold supportsUtf8 OffersUtf8
  cases params.capabilities.offsetEncoding <;> simp

/-- C73: the server starts if the client's root denotes a directory or there is a working directory, and only
then. -/
theorem starts_iff (toFilePath : Text → Option FilePath) (cwd : Option Path) (fs : FileSystem)
    (iter : List Path → List Path) (params : InitializeParams) :
    (start toFilePath cwd fs iter params).isSome = true ↔ ∃ dir, IsRoot toFilePath cwd params dir := by
  unfold start
  cases h : rootPath toFilePath cwd params with
  | none =>
    simp only [Option.isSome_none]
    constructor
    · intro h; cases h
    · rintro ⟨dir, hd⟩
      rw [(rootPath_iff ..).2 hd] at h
      cases h
  | some dir => simpa using ⟨dir, (rootPath_iff ..).1 h⟩

/-- C73: the projects are the manifests found from the workspace folders, or from the root if no folder is a
directory, and there is always a directory that is searched. -/
theorem searches_folders (toFilePath : Text → Option FilePath) (cwd : Option Path) (fs : FileSystem)
    (iter : List Path → List Path) (hiter : ∀ l, (iter l).Nodup ∧ ∀ m, m ∈ iter l ↔ m ∈ l)
    (params : InitializeParams) (encoding : Option Text) (config : Config)
    (h : start toFilePath cwd fs iter params = some (encoding, config)) :
    (∃ dir, IsSearched toFilePath cwd params dir) ∧
    config.linkedProjects.Nodup ∧
    ∀ m, m ∈ config.linkedProjects ↔
      ∃ dir, IsSearched toFilePath cwd params dir ∧ ∃ found, discover fs dir = some found ∧ m ∈ found := by
  unfold start at h
  split at h
  · cases h
  · next root hr =>
    simp only [Option.some.injEq, Prod.mk.injEq] at h
    obtain ⟨_, rfl⟩ := h
    obtain ⟨hne, hmem⟩ := workspaceRoots_spec toFilePath cwd (Config.new root params.capabilities) params
      ((rootPath_iff ..).1 hr)
    obtain ⟨hn, _, hd⟩ := discover_all_spec fs iter hiter
      (workspaceRoots toFilePath (Config.new root params.capabilities) params)
    refine ⟨?_, hn, fun m => ?_⟩
    · obtain ⟨d, hd⟩ := List.exists_mem_of_ne_nil _ hne
      exact ⟨d, (hmem d).1 hd⟩
    · refine (hd m).trans ?_
      constructor
      · rintro ⟨dir, h1, h2⟩; exact ⟨dir, (hmem dir).1 h1, h2⟩
      · rintro ⟨dir, h1, h2⟩; exact ⟨dir, (hmem dir).2 h1, h2⟩

/-- C73: the server announces to count columns in bytes exactly if the client offers it, and its configuration
agrees with what it announced. -/
theorem announces_offered (toFilePath : Text → Option FilePath) (cwd : Option Path) (fs : FileSystem)
    (iter : List Path → List Path) (params : InitializeParams) (encoding : Option Text) (config : Config)
    (h : start toFilePath cwd fs iter params = some (encoding, config)) :
    (encoding = some "utf-8".toList ↔ OffersUtf8 params) ∧ (encoding = none ↔ ¬ OffersUtf8 params) ∧
    (config.offsetEncoding = .utf8 ↔ OffersUtf8 params) := by
  unfold start at h
  split at h
  · cases h
  · simp only [Option.some.injEq, Prod.mk.injEq, Config.new] at h
    obtain ⟨rfl, rfl⟩ := h
    rw [← supportsUtf8_iff]
    unfold Config.offsetEncoding
    simp only
    by_cases hu : supportsUtf8 params.capabilities = true <;> simp [hu]

/-- C73: the server only asks to be told of saved documents if the client said it can do that. -/
theorem registers_if_able (toFilePath : Text → Option FilePath) (cwd : Option Path) (fs : FileSystem)
    (iter : List Path → List Path) (params : InitializeParams) (encoding : Option Text) (config : Config)
    (h : start toFilePath cwd fs iter params = some (encoding, config)) :
    config.didSaveRegistration = true ↔ params.capabilities.synchronization = some (some true, some true) := by
  unfold start at h
  split at h
  · cases h
  · simp only [Option.some.injEq, Prod.mk.injEq, Config.new] at h
    obtain ⟨_, rfl⟩ := h
    unfold Config.didSaveRegistration
    simp only
    cases params.capabilities.synchronization with
    | none => simp
    | some p => obtain ⟨a, b⟩ := p; simp

/-- C73: a server that has started may ask to be told of changed files exactly if the client said it can do that:
a client that is silent about it cannot. -/
theorem watches_if_able (toFilePath : Text → Option FilePath) (cwd : Option Path) (fs : FileSystem)
    (iter : List Path → List Path) (params : InitializeParams) (encoding : Option Text) (config : Config)
    (h : start toFilePath cwd fs iter params = some (encoding, config)) :
    config.watchedFilesRegistration = true ↔ params.capabilities.watchedFiles = some true := by
  unfold start at h
  split at h
  · cases h
  · simp only [Option.some.injEq, Prod.mk.injEq, Config.new] at h
    obtain ⟨_, rfl⟩ := h
    unfold Config.watchedFilesRegistration
    simp only
    cases params.capabilities.watchedFiles <;> simp

/-- URLs `a` and `b` are directories, `r` is a relative path, others are no files. -/
def sampleUrl (uri : Text) : Option FilePath :=
  if uri = ['a'] then some (.absolute [.normal ['w'], .normal ['a']])
  else if uri = ['b'] then some (.absolute [.normal ['v']])
  else if uri = ['r'] then some (.relative [.normal ['w']])
  else none

example : workspaceRoots sampleUrl (.new [] ⟨none, none, none⟩) ⟨none, some [['a'], ['r'], ['x'], ['b']], ⟨none, none, none⟩⟩ =
      [[.normal ['w'], .normal ['a']], [.normal ['v']]] ∧
    workspaceRoots sampleUrl (.new [.normal ['u']] ⟨none, none, none⟩) ⟨none, some [['r']], ⟨none, none, none⟩⟩ =
      [[.normal ['u']]] ∧
    rootPath sampleUrl (some []) ⟨some ['b'], none, ⟨none, none, none⟩⟩ = some [.normal ['v']] ∧
    rootPath sampleUrl none ⟨some ['r'], none, ⟨none, none, none⟩⟩ = none := by decide

example : (start sampleUrl none sampleFs List.eraseDups ⟨some ['a'], none, ⟨some ["utf-16".toList, "utf-8".toList], none, none⟩⟩).isSome = true ∧
    OffersUtf8 ⟨some ['a'], none, ⟨some ["utf-16".toList, "utf-8".toList], none, none⟩⟩ :=
  ⟨rfl, _, rfl, by simp⟩

end Verif.Project.Startup
