import Verif.Editor.BootstrapModel

set_option autoImplicit false

/-!
C74: which executables the extension runs.  C75: repeating a download.
-/

namespace Verif.Editor.Bootstrap

deriving instance DecidableEq for Except

namespace Spec

/-- The platforms executables are published for. -/
inductive Platform where
  | windows | linux | macos
  deriving DecidableEq, Repr

/-- The value of `process.platform` on a platform. -/
def Platform.id : Platform → Text
  | .windows => "win32".toList
  | .linux => "linux".toList
  | .macos => "darwin".toList

/-- The word for the platform in the names of executables. -/
def Platform.word : Platform → Text
  | .windows => "win".toList
  | .linux => "linux".toList
  | .macos => "darwin".toList

def Mentions (name word : Text) : Prop := ∃ a b, name = a ++ word ++ b

/-- An executable is for the platform its name mentions; `win` inside of `darwin` does not count, so a name
that mentions `darwin` is not for Windows. -/
def For (name : Text) (p : Platform) : Prop :=
  Mentions name p.word ∧ (p = .windows → ¬ Mentions name Platform.macos.word)

/-- `a` is the first asset with the property. -/
def First (P : Asset → Prop) (assets : List Asset) (a : Asset) : Prop :=
  ∃ before after, assets = before ++ a :: after ∧ P a ∧ ∀ b ∈ before, ¬ P b

/-- The token stored behind these answers: the last one typed, none if the last one typed is empty. -/
def TokenAfter (token : Option Text) (answers : List Choice) (t : Option Text) : Prop :=
  ((∀ input, .updateToken (some input) ∉ answers) ∧ t = token) ∨
  ∃ before input after, answers = before ++ .updateToken (some input) :: after ∧
    (∀ i, .updateToken (some i) ∉ after) ∧ t = if input = [] then none else some input

/-- The attempt number `k` is made: all attempts before it failed and none was dismissed. -/
def Made {T : Type} (attempt : Nat → Option Text → Except Text T) (answers : List Choice) (token : Option Text)
    (k : Nat) : Prop :=
  k ≤ answers.length ∧ ∀ i, i < k → answers[i]? ≠ some .dismiss ∧
    ∀ t, TokenAfter token (answers.take i) t → ∃ e, attempt i t = .error e

/-- What an outcome means, in terms of the attempts. -/
def Means {T : Type} (attempt : Nat → Option Text → Except Text T) (answers : List Choice) (token : Option Text) :
    Outcome T → Prop
  | .done v => ∃ k t, Made attempt answers token k ∧ TokenAfter token (answers.take k) t ∧ attempt k t = .ok v
  | .thrown e => ∃ k t, Made attempt answers token k ∧ TokenAfter token (answers.take k) t ∧
      attempt k t = .error e ∧ answers[k]? = some .dismiss
  | .waiting => Made attempt answers token answers.length ∧
      ∃ t e, TokenAfter token answers t ∧ attempt answers.length t = .error e

end Spec

open Spec

theorem label_of (p : Platform) : platformLabel p.id = some p.word := by cases p <;> decide

theorem label_none (name : Text) (h : ∀ p : Platform, name ≠ p.id) : platformLabel name = none := by
  have h1 : ¬ name = "win32".toList := h .windows
  have h2 : ¬ name = "linux".toList := h .linux
  have h3 : ¬ name = "darwin".toList := h .macos
  rw [platformLabel, if_neg h1, if_neg h2, if_neg h3]

theorem matches_iff (binary label : Text) (a : Asset) :
    (binary.isPrefixOf a.name && TestUtils.contains label a.name) = true ↔ binary <+: a.name ∧ Mentions a.name label := by
  rw [Bool.and_eq_true, List.isPrefixOf_iff_prefix, TestUtils.contains_iff]
  exact Iff.rfl

theorem findAsset_some (binary label : Text) (assets : List Asset) (a : Asset) :
    findAsset binary label assets = some a ↔
      First (fun a => binary <+: a.name ∧ Mentions a.name label) assets a := by
  unfold findAsset First
  rw [List.find?_eq_some_iff_append]
  constructor
  · rintro ⟨h1, before, after, e, h2⟩
    refine ⟨before, after, e, (matches_iff ..).1 h1, fun b hb hc => ?_⟩
    have := h2 b hb
    rw [(matches_iff ..).2 hc] at this
    cases this
  · rintro ⟨before, after, e, h1, h2⟩
    refine ⟨(matches_iff ..).2 h1, before, after, e, fun b hb => ?_⟩
    cases hm : (binary.isPrefixOf b.name && TestUtils.contains label b.name) with
    | true => exact absurd ((matches_iff ..).1 hm) (h2 b hb)
    | false => rfl

theorem findAsset_none (binary label : Text) (assets : List Asset) :
    findAsset binary label assets = none ↔ ∀ a ∈ assets, ¬ (binary <+: a.name ∧ Mentions a.name label) := by
  unfold findAsset
  rw [List.find?_eq_none]
  exact ⟨fun h a ha hc => h a ha ((matches_iff ..).2 hc), fun h a ha hc => h a ha ((matches_iff ..).1 hc)⟩

/-- C74: a path in the settings is used as it is, with the home directory for a leading `~`, and nothing is
downloaded. -/
theorem setting_wins (w : World) (binary : Text) (h : w.setting ≠ []) :
    getBinaryPath w binary = (.ok w.setting, []) ∧ ¬ "~/".toList <+: w.setting ∨
    ∃ rest, w.setting = "~/".toList ++ rest ∧ getBinaryPath w binary = (.ok (w.home ++ '/' :: rest), []) := by
  unfold getBinaryPath
  rw [if_pos h]
  split
  · next hp =>
    obtain ⟨rest, e⟩ := List.isPrefixOf_iff_prefix.1 hp
    exact .inr ⟨rest, e.symm, by rw [← e]; rfl⟩
  · next hp => exact .inl ⟨rfl, fun hc => hp (List.isPrefixOf_iff_prefix.2 hc)⟩

/-- C74: on other platforms nothing is downloaded. -/
theorem unknown_platform (w : World) (binary : Text) (hs : w.setting = []) (h : ∀ p : Platform, w.platform ≠ p.id) :
    ∃ e, getBinaryPath w binary = (.error e, []) := by
  unfold getBinaryPath
  rw [if_neg (by simp [hs]), label_none w.platform h]
  exact ⟨_, rfl⟩

/-- C74, the part that holds: without a setting the first asset for the binary and the platform is used; it
is downloaded exactly if it is not there yet.  On Windows this needs that no asset for macOS is listed before
it. -/
theorem platform_asset_partial (w : World) (binary : Text) (p : Platform) (assets : List Asset) (a : Asset)
    (hs : w.setting = []) (hp : w.platform = p.id) (hr : w.release = .ok assets)
    (ha : First (fun a => binary <+: a.name ∧ For a.name p) assets a)
    (hwin : p = .windows → ∀ before after, assets = before ++ a :: after →
      ∀ b ∈ before, binary <+: b.name → ¬ Mentions b.name Platform.macos.word) :
    getBinaryPath w binary =
      if w.fileExists (w.storage ++ '/' :: a.name) then (.ok (w.storage ++ '/' :: a.name), [])
      else match w.download a.url (w.storage ++ '/' :: a.name) with
        | none => (.ok (w.storage ++ '/' :: a.name), [(a.url, w.storage ++ '/' :: a.name)])
        | some e => (.error e, [(a.url, w.storage ++ '/' :: a.name)]) := by
  have hf : findAsset binary p.word assets = some a := by
    rw [findAsset_some]
    obtain ⟨before, after, e, ⟨h1, h2⟩, h3⟩ := ha
    refine ⟨before, after, e, ⟨h1, h2.1⟩, fun b hb ⟨hb1, hb2⟩ => h3 b hb ⟨hb1, hb2, fun hw => ?_⟩⟩
    exact hwin hw before after e b hb hb1
  unfold getBinaryPath
  rw [if_neg (by simp [hs]), hp, label_of, hr]
  simp only [hf]
  split
  · rfl
  · cases w.download a.url (w.storage ++ '/' :: a.name) <;> rfl

/-- C74: without an asset for the platform nothing is downloaded. -/
theorem no_asset (w : World) (binary : Text) (p : Platform) (assets : List Asset)
    (hs : w.setting = []) (hp : w.platform = p.id) (hr : w.release = .ok assets)
    (ha : ∀ a ∈ assets, ¬ (binary <+: a.name ∧ Mentions a.name p.word)) :
    ∃ e, getBinaryPath w binary = (.error e, []) := by
  unfold getBinaryPath
  rw [if_neg (by simp [hs]), hp, label_of, hr]
  simp only [(findAsset_none ..).2 ha]
  exact ⟨_, rfl⟩

/-- A release with executables for macOS, Linux and Windows, listed by name. -/
def sampleRelease : List Asset :=
  [⟨"dove-darwin".toList, ['1']⟩, ⟨"dove-linux".toList, ['2']⟩, ⟨"dove-win.exe".toList, ['3']⟩]

def sampleWorld (p : Platform) : World where
  setting := []
  home := "/home/u".toList
  platform := p.id
  storage := "/s".toList
  release := .ok sampleRelease
  fileExists _ := false
  download _ _ := none

/-- C74 fails: on Windows the executable for macOS is downloaded, because `darwin` contains `win`. -/
theorem windows_gets_macos :
    getBinaryPath (sampleWorld .windows) "dove".toList =
      (.ok "/s/dove-darwin".toList, [(['1'], "/s/dove-darwin".toList)]) ∧
    ¬ For "dove-darwin".toList .windows ∧ For "dove-win.exe".toList .windows := by
  refine ⟨by decide +kernel, fun h => h.2 rfl ⟨"dove-".toList, [], rfl⟩, ⟨"dove-".toList, ".exe".toList, rfl⟩, fun _ h => ?_⟩
  have := (TestUtils.contains_iff _ _).2 h
  revert this; decide +kernel

/-- C74 fails: whatever the settings name, the language server is a file in one developer's home. -/
theorem server_path_ignores_settings (w : World) (valid : Text → Bool) (dove server : Text)
    (h : bootstrap w valid = .ok (dove, server)) :
    server = "/home/mkurnikov/code/move-language-server/target/debug/move_language_server".toList := by
  unfold bootstrap at h
  split at h
  · cases h
  · cases h; rfl

/-- The executable `dove` is only used if it runs. -/
theorem dove_is_valid (w : World) (valid : Text → Bool) (dove server : Text)
    (h : bootstrap w valid = .ok (dove, server)) :
    valid dove = true ∧ (getBinaryPath w "dove".toList).1 = .ok dove := by
  unfold bootstrap doveExecutable at h
  cases hg : (getBinaryPath w "dove".toList).1 with
  | error e => rw [hg] at h; cases h
  | ok path =>
    rw [hg] at h
    simp only at h
    cases hv : valid path with
    | false => simp [hv] at h
    | true =>
      simp only [hv, if_true] at h
      cases h
      exact ⟨hv, rfl⟩

example : (getBinaryPath (sampleWorld .linux) "dove".toList) =
      (.ok "/s/dove-linux".toList, [(['2'], "/s/dove-linux".toList)]) ∧
    getBinaryPath { sampleWorld .linux with setting := "~/bin/dove".toList } "dove".toList =
      (.ok "/home/u/bin/dove".toList, []) ∧
    (bootstrap (sampleWorld .linux) (fun _ => true)).isOk := by decide +kernel

/-! ### C75 -/

theorem tokenAfter_unique {token t t' : Option Text} {answers : List Choice}
    (h : TokenAfter token answers t) (h' : TokenAfter token answers t') : t = t' := by
  rcases h with ⟨h1, rfl⟩ | ⟨b, i, a, rfl, h1, rfl⟩ <;> rcases h' with ⟨h2, rfl⟩ | ⟨b', i', a', e, h2, rfl⟩
  · rfl
  · exact absurd (by rw [e]; simp) (h1 i')
  · exact absurd (by simp) (h2 i)
  · rcases List.append_eq_append_iff.1 e with ⟨c, rfl, hc⟩ | ⟨c, rfl, hc⟩
    · cases c with
      | nil => simp at hc; rw [hc.1]
      | cons x c =>
        simp only [List.cons_append, List.cons.injEq] at hc
        exact absurd (by rw [hc.2]; simp) (h1 i')
    · cases c with
      | nil => simp at hc; rw [hc.1]
      | cons x c =>
        simp only [List.cons_append, List.cons.injEq] at hc
        exact absurd (by rw [hc.2]; simp) (h2 i)

theorem tokenAfter_nil (token : Option Text) : TokenAfter token [] token := .inl ⟨by simp, rfl⟩

/-- The token behind an answer, as the code computes it. -/
def next (token : Option Text) : Choice → Option Text
  | .updateToken input => queryToken token input
  | _ => token

theorem tokenAfter_cons (token : Option Text) (c : Choice) (answers : List Choice) (t : Option Text)
    (h : TokenAfter (next token c) answers t) : TokenAfter token (c :: answers) t := by
  rcases h with ⟨h1, rfl⟩ | ⟨b, i, a, rfl, h1, rfl⟩
  · cases c with
    | updateToken input =>
      cases input with
      | none => exact .inl ⟨by simpa using h1, rfl⟩
      | some input =>
        refine .inr ⟨[], input, answers, rfl, h1, ?_⟩
        cases input <;> simp [next, queryToken]
    | retry => exact .inl ⟨by simpa using h1, rfl⟩
    | dismiss => exact .inl ⟨by simpa using h1, rfl⟩
  · exact .inr ⟨c :: b, i, a, rfl, h1, rfl⟩

theorem tokenAfter_cons_iff (token : Option Text) (c : Choice) (answers : List Choice) (t : Option Text)
    (hex : ∃ t', TokenAfter (next token c) answers t') :
    TokenAfter token (c :: answers) t ↔ TokenAfter (next token c) answers t := by
  constructor
  · intro h
    obtain ⟨t', ht'⟩ := hex
    rw [tokenAfter_unique h (tokenAfter_cons _ _ _ _ ht')]
    exact ht'
  · exact tokenAfter_cons _ _ _ _

theorem tokenAfter_exists (token : Option Text) (answers : List Choice) : ∃ t, TokenAfter token answers t := by
  induction answers generalizing token with
  | nil => exact ⟨token, tokenAfter_nil token⟩
  | cons c cs ih =>
    obtain ⟨t, ht⟩ := ih (next token c)
    exact ⟨t, tokenAfter_cons _ _ _ _ ht⟩

theorem made_succ {T : Type} (attempt : Nat → Option Text → Except Text T) (c : Choice) (cs : List Choice)
    (token : Option Text) (e : Text) (h0 : attempt 0 token = .error e) (hc : c ≠ .dismiss) (k : Nat) :
    Made attempt (c :: cs) token (k + 1) ↔ Made (fun i => attempt (i + 1)) cs (next token c) k := by
  unfold Made
  simp only [List.length_cons, Nat.add_le_add_iff_right]
  constructor
  · rintro ⟨h1, h2⟩
    refine ⟨h1, fun i hi => ?_⟩
    have := h2 (i + 1) (by omega)
    simp only [List.getElem?_cons_succ, List.take_succ_cons] at this
    exact ⟨this.1, fun t ht => this.2 t (tokenAfter_cons _ _ _ _ ht)⟩
  · rintro ⟨h1, h2⟩
    refine ⟨h1, fun i hi => ?_⟩
    cases i with
    | zero =>
      refine ⟨by simpa using hc, fun t ht => ?_⟩
      rw [List.take_zero] at ht
      rw [tokenAfter_unique ht (tokenAfter_nil token)]
      exact ⟨e, h0⟩
    | succ i =>
      have := h2 i (by omega)
      simp only [List.getElem?_cons_succ, List.take_succ_cons]
      exact ⟨this.1, fun t ht => this.2 t
        ((tokenAfter_cons_iff _ _ _ _ (tokenAfter_exists _ _)).1 ht)⟩

/-- C75: the dialog ends with the first attempt that succeeds or the first failure the user dismisses, it
stays open while there is neither, and each attempt uses the token last typed. -/
theorem retry_until (T : Type) (attempt : Nat → Option Text → Except Text T) (answers : List Choice)
    (token : Option Text) (first : Nat) :
    Means (fun i => attempt (first + i)) answers token (retryDialog attempt answers first token) := by
  induction answers generalizing token first with
  | nil =>
    unfold retryDialog
    cases h : attempt first token with
    | ok v => exact ⟨0, token, ⟨Nat.le_refl _, by omega⟩, tokenAfter_nil token, h⟩
    | error e => exact ⟨⟨Nat.le_refl _, by simp⟩, token, e, tokenAfter_nil token, h⟩
  | cons c cs ih =>
    unfold retryDialog
    cases h : attempt first token with
    | ok v => exact ⟨0, token, ⟨Nat.zero_le _, by omega⟩, tokenAfter_nil token, h⟩
    | error e =>
      have shift : (fun i => attempt (first + 1 + i)) = fun i => attempt (first + (i + 1)) := by
        funext i; congr 1; omega
      have go : c ≠ .dismiss → ∀ o, Means (fun i => attempt (first + 1 + i)) cs (next token c) o →
          Means (fun i => attempt (first + i)) (c :: cs) token o := by
        intro hc o ho
        rw [shift] at ho
        have hm := made_succ (fun i => attempt (first + i)) c cs token e h hc
        cases o with
        | done v =>
          obtain ⟨k, t, h1, h2, h3⟩ := ho
          exact ⟨k + 1, t, (hm k).2 h1, tokenAfter_cons _ _ _ _ h2, h3⟩
        | thrown x =>
          obtain ⟨k, t, h1, h2, h3, h4⟩ := ho
          exact ⟨k + 1, t, (hm k).2 h1, tokenAfter_cons _ _ _ _ h2, h3, by simpa using h4⟩
        | waiting =>
          obtain ⟨h1, t, x, h2, h3⟩ := ho
          exact ⟨(hm _).2 h1, t, x, tokenAfter_cons _ _ _ _ h2, h3⟩
      cases c with
      | updateToken input => exact go (by simp) _ (ih (queryToken token input) (first + 1))
      | retry => exact go (by simp) _ (ih token (first + 1))
      | dismiss => exact ⟨0, token, ⟨Nat.zero_le _, by omega⟩, tokenAfter_nil token, h, rfl⟩

/-- Two failures, a new token, then success with that token. -/
example : retryDialog (T := Text) (fun i t => if i = 2 then .ok (t.getD []) else .error ['e'])
    [.retry, .updateToken (some ['k'])] 0 none = .done ['k'] := by decide +kernel

end Verif.Editor.Bootstrap
