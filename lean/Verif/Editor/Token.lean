import Verif.Editor.BootstrapModel

/-!
Where the authorization token for GitHub goes (C121).  The model has the effects of `getBinaryPathEnsureExists`, in their
order; `Verif.Editor.Bootstrap` has its results.
-/

set_option autoImplicit false

namespace Verif.Editor.Token

open Verif.Editor.Bootstrap

/-! ### Model -/

inductive Level where
  | debug | info | error
  deriving DecidableEq, Repr

/-- What the extension does to its surroundings. -/
inductive Effect where
  /-- `fetch` with headers -/
  | request (url : Text) (headers : List (Text × Text))
  /-- the output channel, util.ts:16-55; the parts as they are written -/
  | log (level : Level) (parts : List Text)
  /-- the dialog behind a failed download -/
  | failed (message : Text)
  /-- the box for the token, with the value it shows (as dots) -/
  | askToken (value : Option Text)
  /-- `globalState.update('githubToken', …)`, persistent_state.ts:13-15 -/
  | store (token : Option Text)
  deriving DecidableEq, Repr

/-- What comes back from the network. -/
inductive Response where
  /-- the assets of the release; for a file they play no role -/
  | ok (assets : List Asset)
  /-- `!response.ok`: the status, and status, headers and body as they are logged -/
  | refused (status : Text) (shown : Text)
  /-- `fetch` or reading the answer fails -/
  | broken (error : Text)
  deriving DecidableEq, Repr

/-- The surroundings: the answers to the requests (the first argument counts them), errors while a file is written, and
whether debug messages are on. -/
structure Net where
  answer : Nat → Text → List (Text × Text) → Response
  write : Nat → Option Text
  debug : Bool

/-- `RELEAGE_TAG`, bootstrap.ts:10. -/
def releaseTag : Text := "1.2.2".toList

/-- `requestUrl`, net.ts:12-20. -/
def releaseUrl : Text :=
  "https://api.github.com".toList ++ "/repos/".toList ++ "pontem-network/move-tools".toList ++ "/releases/tags/".toList ++ releaseTag

/-- `log.debug`, util.ts:25-28. -/
def debugLog (net : Net) (parts : List Text) : List Effect := if net.debug then [.log .debug parts] else []

/-- `headers`, net.ts:24-27. -/
def releaseHeaders (token : Option Text) : List (Text × Text) :=
  ("Accept".toList, "application/vnd.github.v3+json".toList) ::
    match token with
    | none => []
    | some t => [("Authorization".toList, "token ".toList ++ t)]

/-- `fetchRelease`, net.ts:15-51, as attempt number `i`. -/
def fetchRelease (net : Net) (i : Nat) (token : Option Text) : List Effect × Except Text (List Asset) :=
  let before := debugLog net ["Issuing request for released artifacts metadata to".toList, releaseUrl] ++
    [.request releaseUrl (releaseHeaders token)]
  match net.answer i releaseUrl (releaseHeaders token) with
  | .ok assets => (before, .ok assets)
  | .refused status shown =>
    (before ++ [.log .error ["Error fetching artifact release info".toList, releaseUrl, releaseTag, shown]],
     .error ("Got response ".toList ++ status))
  | .broken e => (before, .error e)

/-- `download` and `downloadFile`, net.ts:74-160; the messages about the size and the progress are left out. -/
def download (net : Net) (url : Text) (i : Nat) (_token : Option Text) : List Effect × Except Text Unit :=
  match net.answer i url [] with
  | .ok _ =>
    ([.request url []], match net.write i with
      | none => .ok ()
      | some e => .error e)
  | .refused status shown =>
    ([.request url [], .log .error ["Error".toList, status, "while downloading file from".toList, url], .log .error [shown]],
     .error ("Got response ".toList ++ status))
  | .broken e => ([.request url []], .error e)

/-- `queryForGithubToken`, net.ts:197-222. -/
def askToken (token : Option Text) : Option Text → List Effect × Option Text
  | none => ([.askToken token], token)
  | some [] => ([.askToken token, .log .info ["Clearing github token".toList], .store none], none)
  | some (c :: t) =>
    ([.askToken token, .log .info ["Storing new github token".toList], .store (some (c :: t))], some (c :: t))

/-- How the dialog ends: with a value, the stored token, the number of attempts and the answers left; with an error; or
not yet. -/
inductive Ended (T : Type) where
  | done (value : T) (token : Option Text) (attempts : Nat) (left : List Choice)
  | thrown (error : Text)
  | waiting

/-- `downloadWithRetryDialog`, net.ts:162-195. -/
def retry {T : Type} (attempt : Nat → Option Text → List Effect × Except Text T) :
    List Choice → Nat → Option Text → List Effect × Ended T
  | choices, i, token =>
    match attempt i token with
    | (fx, .ok value) => (fx, .done value token (i + 1) choices)
    | (fx, .error e) =>
      let fx := fx ++ [.failed ("Failed to download: ".toList ++ e)]
      match choices with
      | [] => (fx, .waiting)
      | .updateToken input :: rest =>
        let asked := askToken token input
        let r := retry attempt rest (i + 1) asked.2
        (fx ++ asked.1 ++ r.1, r.2)
      | .retry :: rest =>
        let r := retry attempt rest (i + 1) token
        (fx ++ r.1, r.2)
      | .dismiss :: _ => (fx, .thrown e)

/-- The part of `getBinaryPathEnsureExists` that uses the network, bootstrap.ts:111-137, for a binary of a platform; `exists`
is `uriExists` of the destination. -/
def obtain (net : Net) (binary label : Text) (there : Text → Bool) (choices : List Choice) (token : Option Text) :
    List Effect × Ended Text :=
  match retry (fetchRelease net) choices 0 token with
  | (fx, .thrown e) => (fx, .thrown e)
  | (fx, .waiting) => (fx, .waiting)
  | (fx, .done assets token n left) =>
    match findAsset binary label assets with
    | none => (fx ++ [.log .error ["Assertion failed:".toList, "Bad release".toList]], .thrown "Bad release".toList)
    | some asset =>
      if there asset.name then (fx, .done asset.name token n left)
      else
        match retry (download net asset.url) left n token with
        | (fx', .thrown e) => (fx ++ fx', .thrown e)
        | (fx', .waiting) => (fx ++ fx', .waiting)
        | (fx', .done _ token n left) => (fx ++ fx', .done asset.name token n left)

/-! ### Specification -/

namespace Spec

/-- The token stored after some effects: the last one stored, or the one there was. -/
def storedAfter (token : Option Text) : List Effect → Option Text
  | [] => token
  | .store t :: rest => storedAfter t rest
  | _ :: rest => storedAfter token rest

/-- The headers carry the token, and no other one. -/
def Carries (headers : List (Text × Text)) (token : Option Text) : Prop :=
  ∀ value, ("Authorization".toList, value) ∈ headers ↔ ∃ t, token = some t ∧ value = "token ".toList ++ t

/-- What a user sees in the output and in dialogs, and what a server other than GitHub's API sees. -/
def visible : Effect → Option Effect
  | .request url headers => if url = releaseUrl then none else some (.request url headers)
  | .log level parts => some (.log level parts)
  | .failed message => some (.failed message)
  | .askToken _ => none
  | .store _ => none

/-- The same answers but for what is typed as a token. -/
inductive SameAnswers : List Choice → List Choice → Prop where
  | nil : SameAnswers [] []
  | retry {a b} : SameAnswers a b → SameAnswers (.retry :: a) (.retry :: b)
  | dismiss {a b} : SameAnswers a b → SameAnswers (.dismiss :: a) (.dismiss :: b)
  | closed {a b} : SameAnswers a b → SameAnswers (.updateToken none :: a) (.updateToken none :: b)
  | cleared {a b} : SameAnswers a b → SameAnswers (.updateToken (some []) :: a) (.updateToken (some []) :: b)
  | typed {a b} (c d : Char) (s t : Text) : SameAnswers a b →
      SameAnswers (.updateToken (some (c :: s)) :: a) (.updateToken (some (d :: t)) :: b)

/-- The answers of the network do not tell what the headers were. -/
def Blind (net : Net) : Prop := ∀ i url h h', net.answer i url h = net.answer i url h'

end Spec

open Spec

/-! ### Stored tokens -/

theorem storedAfter_append (token : Option Text) (a b : List Effect) :
    storedAfter token (a ++ b) = storedAfter (storedAfter token a) b := by
  induction a generalizing token with
  | nil => rfl
  | cons x a ih => cases x <;> simp [storedAfter, ih]

/-- Every request is one of `ok`, given the token stored when it is made. -/
def Rightly (ok : Option Text → Text → List (Text × Text) → Prop) (token : Option Text) (fx : List Effect) : Prop :=
  ∀ a url h b, fx = a ++ .request url h :: b → ok (storedAfter token a) url h

variable {ok : Option Text → Text → List (Text × Text) → Prop}

theorem rightly_append {token : Option Text} {a b : List Effect} (ha : Rightly ok token a)
    (hb : Rightly ok (storedAfter token a) b) : Rightly ok token (a ++ b) := by
  intro x url h y e
  rcases List.append_eq_append_iff.1 e with ⟨l, e1, e2⟩ | ⟨l, e1, e2⟩
  · rw [e1, storedAfter_append]
    exact hb l url h y e2
  · cases l with
    | nil =>
      rw [List.append_nil] at e1
      subst e1
      exact hb [] url h y (by simpa using e2.symm)
    | cons z l =>
      cases e2
      exact ha x url h l e1

theorem rightly_none {token : Option Text} {fx : List Effect} (h : ∀ url hd, .request url hd ∉ fx) : Rightly ok token fx := by
  intro a url hd b e
  exact absurd (by rw [e]; simp) (h url hd)

theorem rightly_one {token : Option Text} {url : Text} {h : List (Text × Text)} (hok : ok token url h) :
    Rightly ok token [.request url h] := by
  intro a url' h' b e
  cases a with
  | nil => cases e; exact hok
  | cons x a => cases a <;> cases e

theorem askToken_stores (token : Option Text) (input : Option Text) :
    storedAfter token (askToken token input).1 = (askToken token input).2 ∧
    ∀ url hd, .request url hd ∉ (askToken token input).1 := by
  unfold askToken
  split <;> simp [storedAfter]

/-- What is asked of an attempt: it stores no token, and its requests are right. -/
def Attempt {T : Type} (ok : Option Text → Text → List (Text × Text) → Prop)
    (attempt : Nat → Option Text → List Effect × Except Text T) : Prop :=
  ∀ i token, storedAfter token (attempt i token).1 = token ∧ Rightly ok token (attempt i token).1

theorem retry_rightly {T : Type} {attempt : Nat → Option Text → List Effect × Except Text T} (h : Attempt ok attempt)
    (choices : List Choice) : ∀ (i : Nat) (token : Option Text),
    Rightly ok token (retry attempt choices i token).1 ∧
    ∀ v t n left, (retry attempt choices i token).2 = .done v t n left →
      storedAfter token (retry attempt choices i token).1 = t := by
  have failed : ∀ (token : Option Text) fx m, storedAfter token fx = token → Rightly ok token fx →
      storedAfter token (fx ++ [.failed m]) = token ∧ Rightly ok token (fx ++ [.failed m]) := by
    intro token fx m h1 h2
    refine ⟨by rw [storedAfter_append, h1]; rfl, rightly_append h2 (rightly_none (by simp))⟩
  induction choices with
  | nil =>
    intro i token
    obtain ⟨h1, h2⟩ := h i token
    unfold retry
    generalize attempt i token = r at h1 h2
    rcases r with ⟨fx, e | v⟩
    · exact ⟨(failed token fx _ h1 h2).2, fun v t n left he => by cases he⟩
    · exact ⟨h2, fun v t n left he => by cases he; exact h1⟩
  | cons c rest ih =>
    intro i token
    obtain ⟨h1, h2⟩ := h i token
    unfold retry
    generalize attempt i token = r at h1 h2
    rcases r with ⟨fx, e | v⟩
    · obtain ⟨f1, f2⟩ := failed token fx ("Failed to download: ".toList ++ e) h1 h2
      cases c with
      | retry =>
        obtain ⟨i1, i2⟩ := ih (i + 1) token
        simp only
        refine ⟨rightly_append f2 (by rw [f1]; exact i1), fun v t n left he => ?_⟩
        rw [storedAfter_append, f1]
        exact i2 v t n left he
      | dismiss => exact ⟨f2, fun v t n left he => by cases he⟩
      | updateToken input =>
        obtain ⟨a1, a2⟩ := askToken_stores token input
        obtain ⟨i1, i2⟩ := ih (i + 1) (askToken token input).2
        have f3 : storedAfter token (fx ++ [.failed ("Failed to download: ".toList ++ e)] ++ (askToken token input).1) =
            (askToken token input).2 := by rw [storedAfter_append, f1, a1]
        simp only
        refine ⟨rightly_append (rightly_append f2 (rightly_none a2)) (by rw [f3]; exact i1), fun v t n left he => ?_⟩
        rw [storedAfter_append, f3]
        exact i2 v t n left he
    · exact ⟨h2, fun v t n left he => by cases he; exact h1⟩

theorem debugLog_attempt (net : Net) (token : Option Text) (parts : List Text) :
    storedAfter token (debugLog net parts) = token ∧ Rightly ok token (debugLog net parts) := by
  unfold debugLog
  split <;> exact ⟨rfl, rightly_none (by simp)⟩

/-- The requests for the release. -/
def ToGithub (token : Option Text) (url : Text) (h : List (Text × Text)) : Prop :=
  url = releaseUrl ∧ h = releaseHeaders token

theorem fetchRelease_attempt (net : Net) : Attempt ToGithub (fetchRelease net) := by
  intro i token
  have hb : ∀ token, storedAfter token (debugLog net ["Issuing request for released artifacts metadata to".toList, releaseUrl] ++
      [.request releaseUrl (releaseHeaders token)]) = token ∧
      Rightly ToGithub token (debugLog net ["Issuing request for released artifacts metadata to".toList, releaseUrl] ++
        [.request releaseUrl (releaseHeaders token)]) := by
    intro token
    obtain ⟨d1, d2⟩ := debugLog_attempt (ok := ToGithub) net token
      ["Issuing request for released artifacts metadata to".toList, releaseUrl]
    refine ⟨by rw [storedAfter_append, d1]; rfl, rightly_append d2 ?_⟩
    rw [d1]
    exact rightly_one ⟨rfl, rfl⟩
  unfold fetchRelease
  simp only
  split
  · exact hb token
  · refine ⟨by rw [storedAfter_append, (hb token).1]; rfl, rightly_append (hb token).2 (rightly_none (by simp))⟩
  · exact hb token

theorem download_attempt (net : Net) (url : Text) : Attempt (fun _ u h => u = url ∧ h = []) (download net url) := by
  intro i token
  have h1 := rightly_one (ok := fun _ u h => u = url ∧ h = []) (token := token) (url := url) (h := []) ⟨rfl, rfl⟩
  unfold download
  split
  · exact ⟨rfl, h1⟩
  · refine ⟨rfl, ?_⟩
    exact rightly_append (a := [.request url []]) h1 (rightly_none (by simp))
  · exact ⟨rfl, h1⟩

theorem rightly_mono {ok ok' : Option Text → Text → List (Text × Text) → Prop} {token : Option Text} {fx : List Effect}
    (h : ∀ t u hd, ok t u hd → ok' t u hd) (hr : Rightly ok token fx) : Rightly ok' token fx :=
  fun a url hd b e => h _ _ _ (hr a url hd b e)

theorem releaseHeaders_carry (token : Option Text) : Carries (releaseHeaders token) token := by
  intro value
  have h : ("Authorization".toList, value) ≠ ("Accept".toList, "application/vnd.github.v3+json".toList) := by
    have hn : "Authorization".toList ≠ "Accept".toList := by decide +kernel
    exact fun e => hn (congrArg Prod.fst e)
  cases token with
  | none => simp only [releaseHeaders, List.mem_cons, h, List.not_mem_nil, or_false, reduceCtorEq, false_and, exists_false]
  | some t =>
    simp only [releaseHeaders, List.mem_cons, h, List.not_mem_nil, or_false, false_or, Prod.mk.injEq, true_and, Option.some.injEq]
    constructor
    · rintro rfl; exact ⟨t, rfl, rfl⟩
    · rintro ⟨_, rfl, rfl⟩; rfl

/-- **C121.**  Every request for the release has the token that is stored when it is made, the one entered last, and goes
to GitHub's API. -/
theorem release_requests_have_the_token (net : Net) (choices : List Choice) (token : Option Text)
    (a : List Effect) (url : Text) (h : List (Text × Text)) (b : List Effect)
    (he : (retry (fetchRelease net) choices 0 token).1 = a ++ .request url h :: b) :
    url = releaseUrl ∧ Carries h (storedAfter token a) := by
  obtain ⟨h1, rfl⟩ := (retry_rightly (fetchRelease_attempt net) choices 0 token).1 a url h b he
  exact ⟨h1, releaseHeaders_carry _⟩

theorem obtain_rightly (net : Net) (binary label : Text) (there : Text → Bool) (choices : List Choice) (token : Option Text) :
    Rightly (fun t url h => ToGithub t url h ∨ h = []) token (obtain net binary label there choices token).1 := by
  obtain ⟨h1, h2⟩ := retry_rightly (fetchRelease_attempt net) choices 0 token
  have h1' : Rightly (fun t url h => ToGithub t url h ∨ h = []) token (retry (fetchRelease net) choices 0 token).1 :=
    rightly_mono (fun _ _ _ h => .inl h) h1
  unfold obtain
  generalize retry (fetchRelease net) choices 0 token = r at h1' h2
  rcases r with ⟨fx, e⟩
  cases e with
  | thrown e => exact h1'
  | waiting => exact h1'
  | done assets t n left =>
    simp only
    cases hf : findAsset binary label assets with
    | none => exact rightly_append h1' (rightly_none (by simp))
    | some asset =>
      simp only
      split
      · exact h1'
      · have h3 := rightly_mono (ok' := fun t url h => ToGithub t url h ∨ h = []) (fun _ _ _ h => .inr h.2)
          (retry_rightly (download_attempt net asset.url) left n t).1
        have h4 := h2 assets t n left rfl
        simp only at h4
        generalize retry (download net asset.url) left n t = r' at h3
        rcases r' with ⟨fx', e'⟩
        have := rightly_append h1' (b := fx') (by rw [h4]; exact h3)
        cases e' <;> exact this

/-- **C121.**  A token goes to GitHub's API and nowhere else: a request with any header is one for the release, with the
token stored when it is made. -/
theorem token_only_to_github (net : Net) (binary label : Text) (there : Text → Bool) (choices : List Choice)
    (token : Option Text) (a : List Effect) (url : Text) (h : List (Text × Text)) (b : List Effect)
    (he : (obtain net binary label there choices token).1 = a ++ .request url h :: b) (hh : h ≠ []) :
    url = releaseUrl ∧ Carries h (storedAfter token a) := by
  rcases obtain_rightly net binary label there choices token a url h b he with ⟨h1, rfl⟩ | h1
  · exact ⟨h1, releaseHeaders_carry _⟩
  · exact absurd h1 hh

/-! ### What is obtained -/

theorem retry_done {T : Type} {attempt : Nat → Option Text → List Effect × Except Text T} (choices : List Choice) :
    ∀ (i : Nat) (token : Option Text) (v : T) (t : Option Text) (n : Nat) (left : List Choice),
    (retry attempt choices i token).2 = .done v t n left →
    i < n ∧ (attempt (n - 1) t).2 = .ok v ∧ left <:+ choices ∧ n = i + 1 + (choices.length - left.length) := by
  induction choices with
  | nil =>
    intro i token v t n left h
    unfold retry at h
    split at h
    · next fx value e =>
      simp only [Ended.done.injEq] at h
      obtain ⟨rfl, rfl, rfl, rfl⟩ := h
      exact ⟨by omega, by simp [e], List.suffix_refl _, by simp⟩
    · simp at h
  | cons c choices ih =>
    intro i token v t n left h
    unfold retry at h
    split at h
    · next fx value e =>
      simp only [Ended.done.injEq] at h
      obtain ⟨rfl, rfl, rfl, rfl⟩ := h
      exact ⟨by omega, by simp [e], List.suffix_refl _, by simp⟩
    · cases c with
      | updateToken input =>
        obtain ⟨h1, h2, h3, h4⟩ := ih _ _ v t n left h
        refine ⟨by omega, h2, h3.trans (List.suffix_cons _ _), ?_⟩
        have := h3.length_le
        simp only [List.length_cons]
        omega
      | retry =>
        obtain ⟨h1, h2, h3, h4⟩ := ih _ _ v t n left h
        refine ⟨by omega, h2, h3.trans (List.suffix_cons _ _), ?_⟩
        have := h3.length_le
        simp only [List.length_cons]
        omega
      | dismiss => simp at h

/-- C47: a binary is used only if its file was there, or if one of the requests for an asset of its name was answered
with status ok and the file was written without error. -/
theorem obtained_was_written (net : Net) (binary label : Text) (there : Text → Bool) (choices : List Choice)
    (token : Option Text) (name : Text) (t : Option Text) (n : Nat) (left : List Choice)
    (h : (obtain net binary label there choices token).2 = .done name t n left) :
    there name = true ∨ ∃ i url assets, net.answer i url [] = .ok assets ∧ net.write i = none ∧
      ∃ k h released, net.answer k releaseUrl h = .ok released ∧ k < i ∧ ∃ asset ∈ released, asset.name = name ∧ asset.url = url := by
  unfold obtain at h
  split at h
  · simp at h
  · simp at h
  · next fx assets tk n0 left0 e =>
    have h1 := retry_done choices 0 token assets tk n0 left0 (by rw [e])
    split at h
    · simp at h
    · next asset ha =>
      split at h
      · next hth =>
        simp only [Ended.done.injEq] at h
        obtain ⟨rfl, _⟩ := h
        exact .inl hth
      · split at h
        · simp at h
        · simp at h
        · next fx' u t' n' left' e' =>
          simp only [Ended.done.injEq] at h
          obtain ⟨rfl, rfl, rfl, rfl⟩ := h
          have h2 := retry_done left0 n0 tk u t' n' left' (by rw [e'])
          refine .inr ⟨n' - 1, asset.url, ?_⟩
          have hw : ∃ as, net.answer (n' - 1) asset.url [] = .ok as ∧ net.write (n' - 1) = none := by
            have := h2.2.1
            unfold download at this
            split at this
            · next as ha' =>
              refine ⟨as, ha', ?_⟩
              simp only at this
              split at this
              · assumption
              · cases this
            · cases this
            · cases this
          obtain ⟨as, hw1, hw2⟩ := hw
          refine ⟨as, hw1, hw2, n0 - 1, releaseHeaders tk, assets, ?_, by have := h1.1; have := h2.1; omega, asset, ?_, rfl, rfl⟩
          · have := h1.2.1
            unfold fetchRelease at this
            simp only at this
            split at this
            · next as' ha' => simp only [Except.ok.injEq] at this; rw [ha', this]
            · cases this
            · cases this
          · exact List.mem_of_find?_eq_some ha

/-! ### What others see -/

/-- What is seen of an attempt, and how it ends, does not depend on the token. -/
def Discreet {T : Type} (attempt : Nat → Option Text → List Effect × Except Text T) : Prop :=
  ∀ i t t', (attempt i t).2 = (attempt i t').2 ∧
    (attempt i t).1.filterMap visible = (attempt i t').1.filterMap visible

/-- How two dialogs end, but for the token. -/
def SameEnd {T : Type} : Ended T → Ended T → Prop
  | .done v _ n left, .done v' _ n' left' => v = v' ∧ n = n' ∧ SameAnswers left left'
  | .thrown e, .thrown e' => e = e'
  | .waiting, .waiting => True
  | _, _ => False

theorem retry_discreet {T : Type} {attempt : Nat → Option Text → List Effect × Except Text T} (h : Discreet attempt)
    {choices choices' : List Choice} (hc : SameAnswers choices choices') : ∀ (i : Nat) (t t' : Option Text),
    (retry attempt choices i t).1.filterMap visible = (retry attempt choices' i t').1.filterMap visible ∧
    SameEnd (retry attempt choices i t).2 (retry attempt choices' i t').2 := by
  have ok : ∀ {a b : List Choice} (v : T) (fx fx' : List Effect) (t t' : Option Text) (i : Nat), SameAnswers a b → fx.filterMap visible = fx'.filterMap visible →
      fx.filterMap visible = fx'.filterMap visible ∧ SameEnd (Ended.done v t i a) (.done v t' i b) :=
    fun v fx fx' t t' i hab hfx => ⟨hfx, rfl, rfl, hab⟩
  induction hc with
  | nil =>
    intro i t t'
    obtain ⟨h1, h2⟩ := h i t t'
    unfold retry
    generalize attempt i t = r at h1 h2
    generalize attempt i t' = r' at h1 h2
    rcases r with ⟨fx, e⟩
    rcases r' with ⟨fx', e'⟩
    simp only at h1 h2
    subst h1
    cases e with
    | error e => exact ⟨by simp [h2], trivial⟩
    | ok v => exact ok v fx fx' t t' _ .nil h2
  | @retry a b hab ih =>
    intro i t t'
    obtain ⟨h1, h2⟩ := h i t t'
    unfold retry
    generalize attempt i t = r at h1 h2
    generalize attempt i t' = r' at h1 h2
    rcases r with ⟨fx, e⟩
    rcases r' with ⟨fx', e'⟩
    simp only at h1 h2
    subst h1
    cases e with
    | error e => exact ⟨by simp only [List.filterMap_append, h2, (ih (i + 1) t t').1], (ih (i + 1) t t').2⟩
    | ok v => exact ok v fx fx' t t' _ (.retry hab) h2
  | @dismiss a b hab ih =>
    intro i t t'
    obtain ⟨h1, h2⟩ := h i t t'
    unfold retry
    generalize attempt i t = r at h1 h2
    generalize attempt i t' = r' at h1 h2
    rcases r with ⟨fx, e⟩
    rcases r' with ⟨fx', e'⟩
    simp only at h1 h2
    subst h1
    cases e with
    | error e => exact ⟨by simp [h2], rfl⟩
    | ok v => exact ok v fx fx' t t' _ (.dismiss hab) h2
  | @closed a b hab ih =>
    intro i t t'
    obtain ⟨h1, h2⟩ := h i t t'
    unfold retry
    generalize attempt i t = r at h1 h2
    generalize attempt i t' = r' at h1 h2
    rcases r with ⟨fx, e⟩
    rcases r' with ⟨fx', e'⟩
    simp only at h1 h2
    subst h1
    cases e with
    | error e =>
      have ha : (askToken t none).1.filterMap visible = (askToken t' none).1.filterMap visible := rfl
      have hi := ih (i + 1) (askToken t none).2 (askToken t' none).2
      exact ⟨by simp only [List.filterMap_append, h2, ha, hi.1], hi.2⟩
    | ok v => exact ok v fx fx' t t' _ (.closed hab) h2
  | @cleared a b hab ih =>
    intro i t t'
    obtain ⟨h1, h2⟩ := h i t t'
    unfold retry
    generalize attempt i t = r at h1 h2
    generalize attempt i t' = r' at h1 h2
    rcases r with ⟨fx, e⟩
    rcases r' with ⟨fx', e'⟩
    simp only at h1 h2
    subst h1
    cases e with
    | error e =>
      have ha : (askToken t (some [])).1.filterMap visible = (askToken t' (some [])).1.filterMap visible := rfl
      have hi := ih (i + 1) (askToken t (some [])).2 (askToken t' (some [])).2
      exact ⟨by simp only [List.filterMap_append, h2, ha, hi.1], hi.2⟩
    | ok v => exact ok v fx fx' t t' _ (.cleared hab) h2
  | @typed a b c d x y hab ih =>
    intro i t t'
    obtain ⟨h1, h2⟩ := h i t t'
    unfold retry
    generalize attempt i t = r at h1 h2
    generalize attempt i t' = r' at h1 h2
    rcases r with ⟨fx, e⟩
    rcases r' with ⟨fx', e'⟩
    simp only at h1 h2
    subst h1
    cases e with
    | error e =>
      have ha : (askToken t (some (c :: x))).1.filterMap visible = (askToken t' (some (d :: y))).1.filterMap visible := rfl
      have hi := ih (i + 1) (askToken t (some (c :: x))).2 (askToken t' (some (d :: y))).2
      exact ⟨by simp only [List.filterMap_append, h2, ha, hi.1], hi.2⟩
    | ok v => exact ok v fx fx' t t' _ (.typed c d x y hab) h2

theorem fetchRelease_discreet {net : Net} (hb : Blind net) : Discreet (fetchRelease net) := by
  intro i t t'
  unfold fetchRelease
  rw [hb i releaseUrl (releaseHeaders t) (releaseHeaders t')]
  simp only
  split <;> simp [visible]

theorem download_discreet (net : Net) (url : Text) : Discreet (download net url) := by
  intro i t t'
  unfold download
  exact ⟨rfl, rfl⟩

/-- **C121.**  Nobody but GitHub's API gets to know the token: with other tokens, stored or entered, the output, the
dialogs and the other requests are the same, as long as the answers of GitHub are. -/
theorem token_is_not_seen (net : Net) (hb : Blind net) (binary label : Text) (there : Text → Bool)
    (choices choices' : List Choice) (hc : SameAnswers choices choices') (token token' : Option Text) :
    (obtain net binary label there choices token).1.filterMap visible =
      (obtain net binary label there choices' token').1.filterMap visible := by
  obtain ⟨h1, h2⟩ := retry_discreet (fetchRelease_discreet hb) hc 0 token token'
  unfold obtain
  generalize retry (fetchRelease net) choices 0 token = r at h1 h2
  generalize retry (fetchRelease net) choices' 0 token' = r' at h1 h2
  rcases r with ⟨fx, e⟩
  rcases r' with ⟨fx', e'⟩
  simp only at h1 h2
  cases e with
  | thrown e => cases e' <;> first | exact h1 | cases h2
  | waiting => cases e' <;> first | exact h1 | cases h2
  | done assets t n left =>
    cases e' with
    | thrown e => cases h2
    | waiting => cases h2
    | done assets' t' n' left' =>
      obtain ⟨rfl, rfl, h3⟩ := h2
      simp only
      cases findAsset binary label assets with
      | none => simp [h1]
      | some asset =>
        simp only
        split
        · exact h1
        · obtain ⟨h4, h5⟩ := retry_discreet (download_discreet net asset.url) h3 n t t'
          generalize retry (download net asset.url) left n t = r at h4 h5
          generalize retry (download net asset.url) left' n t' = r' at h4 h5
          rcases r with ⟨fx2, e⟩
          rcases r' with ⟨fx2', e'⟩
          simp only at h4 h5
          cases e <;> cases e' <;> first | (simp only [List.filterMap_append, h1, h4]; done) | cases h5

/-! ### Downloads -/

/-- **C121, violated.**  The dialog behind a failed download offers to enter a token, but a download is never made with
one: if the file is not given out without a token, no answer ends the dialog with the file. -/
theorem token_does_not_help_downloads (net : Net) (url : Text) (h : ∀ i as, net.answer i url [] ≠ .ok as)
    (choices : List Choice) (i : Nat) (token : Option Text) (t : Option Text) (n : Nat) (left : List Choice) :
    (retry (download net url) choices i token).2 ≠ .done () t n left := by
  have hd : ∀ i token, ∃ fx e, download net url i token = (fx, .error e) := by
    intro i token
    unfold download
    split
    · rename_i as he; exact absurd he (h i as)
    · exact ⟨_, _, rfl⟩
    · exact ⟨_, _, rfl⟩
  induction choices generalizing i token with
  | nil =>
    obtain ⟨fx, e, he⟩ := hd i token
    unfold retry
    rw [he]
    exact fun h => by cases h
  | cons c rest ih =>
    obtain ⟨fx, e, he⟩ := hd i token
    unfold retry
    rw [he]
    cases c with
    | retry => exact ih (i + 1) token
    | dismiss => exact fun h => by cases h
    | updateToken input => exact ih (i + 1) _

/-! ### Cases -/

/-- The first request fails, the second one gives a release, the file is refused once. -/
def sampleNet : Net where
  answer i _ _ :=
    if i = 0 then .refused "403".toList "limit".toList
    else if i = 1 then .ok [⟨"dove-linux".toList, "https://example.com/dove".toList⟩]
    else if i = 2 then .refused "500".toList "down".toList
    else .ok []
  write _ := none
  debug := true

example : Blind sampleNet := fun _ _ _ _ => rfl

/-- A token is entered after the first failure; it is in the second request and in no other. -/
example : (obtain sampleNet "dove".toList "linux".toList (fun _ => false) [.updateToken (some "abc".toList), .retry] none).1.filterMap
      (fun | .request url h => some (url, h.map Prod.snd) | _ => none) =
    [(releaseUrl, ["application/vnd.github.v3+json".toList]),
     (releaseUrl, ["application/vnd.github.v3+json".toList, "token abc".toList]),
     ("https://example.com/dove".toList, []), ("https://example.com/dove".toList, [])] := by decide +kernel

/-- Witness of `obtained_was_written`: the fourth request brings the file. -/
example : (match (obtain sampleNet "dove".toList "linux".toList (fun _ => false)
      [.updateToken (some "abc".toList), .retry] none).2 with
    | .done name _ n _ => some (name, n)
    | _ => none) = some ("dove-linux".toList, 4) := by decide +kernel

example : SameAnswers [.updateToken (some "abc".toList), .retry] [.updateToken (some "x".toList), .retry] :=
  .typed 'a' 'x' "bc".toList [] (.retry .nil)

example : releaseUrl = "https://api.github.com/repos/pontem-network/move-tools/releases/tags/1.2.2".toList := by decide +kernel

/-- A server that gives out files for a token only. -/
example : ∃ net : Net, (∀ i as, net.answer i "https://example.com/dove".toList [] ≠ .ok as) ∧
    ∀ i t, net.answer i "https://example.com/dove".toList (releaseHeaders (some t)) = .ok [] :=
  ⟨⟨fun _ _ h => if h = [] then .refused [] [] else .ok [], fun _ => none, false⟩, fun _ _ => by simp, fun _ _ => by simp [releaseHeaders]⟩

end Verif.Editor.Token
