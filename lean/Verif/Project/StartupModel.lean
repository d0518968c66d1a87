import Verif.Project.Model

set_option autoImplicit false

/-!
Model of the start of the server: `/repo/crates/move_language_server/src/bin/move_language_server.rs`,
`config.rs` and `supports_utf8` of `lsp_ext.rs`.
-/

namespace Verif.Project.Startup

/-- A file path as `PathBuf`: absolute, or relative to the working directory. -/
inductive FilePath where
  | absolute (path : Path)
  | relative (path : Path)
  deriving DecidableEq, Repr

/-- `AbsPathBuf::try_from(..).ok()`, paths/src/lib.rs:46-54. -/
def absPathBuf : FilePath → Option Path
  | .absolute path => some path
  | .relative _ => none

/-- The part of `lsp_types::ClientCapabilities` that is read; missing parents of a capability are `none`. -/
structure ClientCapabilities where
  /-- `offset_encoding` -/
  offsetEncoding : Option (List Text)
  /-- `text_document.synchronization`: `did_save` and `dynamic_registration` -/
  synchronization : Option (Option Bool × Option Bool)
  /-- `workspace.did_change_watched_files.dynamic_registration` -/
  watchedFiles : Option Bool
  deriving DecidableEq, Repr

/-- The part of `lsp_types::InitializeParams` that is read.  A URL is a text. -/
structure InitializeParams where
  rootUri : Option Text
  workspaceFolders : Option (List Text)
  capabilities : ClientCapabilities
  deriving DecidableEq, Repr

/-- `supports_utf8`, lsp_ext.rs:455-457. -/
def supportsUtf8 (caps : ClientCapabilities) : Bool :=
  (caps.offsetEncoding.getD []).any fun it => it == "utf-8".toList

/-- `OffsetEncoding`, line_index.rs:10-13. -/
inductive OffsetEncoding where
  | utf8 | utf16
  deriving DecidableEq, Repr

/-- `Config`, config.rs:12-17; `detached_files` is always empty. -/
structure Config where
  caps : ClientCapabilities
  discoveredProjects : Option (List Path)
  rootPath : Path
  deriving DecidableEq, Repr

/-- `Config::new`, config.rs:42-44. -/
def Config.new (rootPath : Path) (caps : ClientCapabilities) : Config := ⟨caps, none, rootPath⟩

/-- `Config::offset_encoding`, config.rs:73-79. -/
def Config.offsetEncoding (c : Config) : OffsetEncoding := if supportsUtf8 c.caps then .utf8 else .utf16

/-- `Config::did_save_text_document_dynamic_registration`, config.rs:60-64. -/
def Config.didSaveRegistration (c : Config) : Bool :=
  let caps := c.caps.synchronization.getD (none, none)
  caps.1 == some true && caps.2 == some true

/-- `Config::did_change_watched_files_dynamic_registration`, config.rs:66-71. -/
def Config.watchedFilesRegistration (c : Config) : Bool := c.caps.watchedFiles.getD false

/-- `Config::linked_projects`, config.rs:46-54. -/
def Config.linkedProjects (c : Config) : List Path := c.discoveredProjects.getD []

/-- `Url::to_file_path().ok()` and then `AbsPathBuf::try_from(..).ok()`, move_language_server.rs:63-64 and
100-101. -/
def folderPath (toFilePath : Text → Option FilePath) (uri : Text) : Option Path :=
  (toFilePath uri).bind absPathBuf

/-- `root_path`, move_language_server.rs:61-71.  `cwd` is `env::current_dir`, `none` an error of it, which ends
the server; that it is absolute is a contract of the standard library. -/
def rootPath (toFilePath : Text → Option FilePath) (cwd : Option Path) (params : InitializeParams) : Option Path :=
  match params.rootUri.bind (folderPath toFilePath) with
  | some it => some it
  | none => cwd

/-- `workspace_roots`, move_language_server.rs:95-105. -/
def workspaceRoots (toFilePath : Text → Option FilePath) (config : Config) (params : InitializeParams) : List Path :=
  ((params.workspaceFolders.map fun workspaces => workspaces.filterMap (folderPath toFilePath)).filter
    fun workspaces => !workspaces.isEmpty).getD [config.rootPath]

/-- `run_server` up to the main loop, move_language_server.rs:51-112: the encoding it announces and the
configuration the main loop is given.  `none`: it ends with an error. -/
def start (toFilePath : Text → Option FilePath) (cwd : Option Path) (fs : FileSystem)
    (iter : List Path → List Path) (params : InitializeParams) : Option (Option Text × Config) :=
  match rootPath toFilePath cwd params with
  | none => none
  | some root =>
    let config := Config.new root params.capabilities
    let offsetEncoding := if supportsUtf8 config.caps then some "utf-8".toList else none
    let discovered := discoverAll fs iter (workspaceRoots toFilePath config params)
    some (offsetEncoding, { config with discoveredProjects := some discovered })

end Verif.Project.Startup
