import Verif.TestUtils.Fixture

set_option autoImplicit false

/-!
Model of `/repo/editors/code/src/components/bootstrap.ts` and of the retry dialog of
`/repo/editors/code/src/components/net.ts`.
-/

namespace Verif.Editor.Bootstrap

/-- The answer to the dialog behind a failed download, net.ts:170-192.  Closing the dialog counts as
`dismiss`.  `updateToken` carries what is typed into the box for the token, `none` if the box is closed. -/
inductive Choice where
  | updateToken (input : Option Text)
  | retry
  | dismiss
  deriving DecidableEq, Repr

/-- `queryForGithubToken`, net.ts:197-222: the stored token behind the dialog. -/
def queryToken (token : Option Text) : Option Text → Option Text
  | none => token
  | some [] => none
  | some t => some t

inductive Outcome (T : Type) where
  | done (value : T)
  | thrown (error : Text)
  /-- the dialog is still open -/
  | waiting
  deriving DecidableEq, Repr

/-- `downloadWithRetryDialog`, net.ts:162-195.  `attempt i token` is the result of the call number `i` of
`downloadFunc` with the token stored at that time; the list holds the answers of the user. -/
def retryDialog {T : Type} (attempt : Nat → Option Text → Except Text T) :
    List Choice → Nat → Option Text → Outcome T
  | choices, i, token =>
    match attempt i token with
    | .ok value => .done value
    | .error e =>
      match choices with
      | [] => .waiting
      | .updateToken input :: rest => retryDialog attempt rest (i + 1) (queryToken token input)
      | .retry :: rest => retryDialog attempt rest (i + 1) token
      | .dismiss :: _ => .thrown e

/-- `getPlatformLabel`, bootstrap.ts:12-17, on the values of `process.platform`. -/
def platformLabel (name : Text) : Option Text :=
  if name = "win32".toList then some "win".toList
  else if name = "linux".toList then some "linux".toList
  else if name = "darwin".toList then some "darwin".toList
  else none

/-- An asset of a release, net.ts:59-63. -/
structure Asset where
  name : Text
  url : Text
  deriving DecidableEq, Repr

/-- What the surroundings answer to one call. -/
structure World where
  /-- `ExtensionSettings.get(configPath)`; unset is empty -/
  setting : Text
  home : Text
  /-- `process.platform` -/
  platform : Text
  /-- `context.globalStorageUri` -/
  storage : Text
  /-- the assets of the release, or the error the user dismissed -/
  release : Except Text (List Asset)
  /-- `uriExists` -/
  fileExists : Text → Bool
  /-- the download of this url to this file, `some` with the error the user dismissed -/
  download : Text → Text → Option Text

/-- Result and downloads made (url and destination). -/
abbrev Result := Except Text Text × List (Text × Text)

/-- `asset` of bootstrap.ts:116-119. -/
def findAsset (binaryName label : Text) (assets : List Asset) : Option Asset :=
  assets.find? fun a => binaryName.isPrefixOf a.name && TestUtils.contains label a.name

/-- `getBinaryPathEnsureExists`, bootstrap.ts:88-138, with a `configPath`.  Simplified: `Uri.joinPath` puts
the name behind a slash, names with `..` are not treated. -/
def getBinaryPath (w : World) (binaryName : Text) : Result :=
  if w.setting ≠ [] then
    if "~/".toList.isPrefixOf w.setting then (.ok (w.home ++ w.setting.drop 1), [])
    else (.ok w.setting, [])
  else match platformLabel w.platform with
    | none => (.error "not available".toList, [])
    | some label =>
      match w.release with
      | .error e => (.error e, [])
      | .ok assets =>
        match findAsset binaryName label assets with
        | none => (.error "Bad release".toList, [])
        | some asset =>
          let dest := w.storage ++ '/' :: asset.name
          if w.fileExists dest then (.ok dest, [])
          else match w.download asset.url dest with
            | some e => (.error e, [(asset.url, dest)])
            | none => (.ok dest, [(asset.url, dest)])

/-- `bootstrapDoveExecutable`, bootstrap.ts:74-86; `valid` is `isValidExecutable`. -/
def doveExecutable (w : World) (valid : Text → Bool) : Except Text Text :=
  match (getBinaryPath w "dove".toList).1 with
  | .error e => .error e
  | .ok path => if valid path then .ok path else .error "Failed to execute".toList

/-- `bootstrap`, bootstrap.ts:24-57: the executables `dove` and `move-language-server`.  The call of
`bootstrapLanguageServer` is commented out in the code. -/
def bootstrap (w : World) (valid : Text → Bool) : Except Text (Text × Text) :=
  match doveExecutable w valid with
  | .error _ => .error "bootstrap error. ".toList
  | .ok dove => .ok (dove, "/home/mkurnikov/code/move-language-server/target/debug/move_language_server".toList)

end Verif.Editor.Bootstrap
