import Verif.Editor.ActivateModel

set_option autoImplicit false

/-!
C81: handlers of the extension are never registered twice.
C82: a change of the settings or of a project reloads the extension (violated).
-/

namespace Verif.Editor.Activate

namespace Spec

/-- The handlers that make a client for a document. -/
def first : List Handler := [.factory, .activeEditor, .saveInit]

/-- All handlers. -/
def all : List Handler := [.factory, .activeEditor, .saveInit, .reload, .config, .create, .delete, .saveToml]

/-- What a user sees: the extension is being activated, is active, or its activation has failed. -/
inductive Status where
  | starting | active | failed
  deriving DecidableEq, Repr

/-- The status after an action.  Only an active extension is reloaded. -/
def Status.next : Status → (calls : Nat) → Action → Status
  | .starting, _, .settle true => .active
  | .starting, _, .settle false => .failed
  | .active, calls, .deliver => if calls = 0 then .active else .starting
  | st, _, _ => st

end Spec

open Spec

/-- The registrations are those of `context.subscriptions`, under different numbers. -/
structure Held (s : State) (hs : List Handler) : Prop where
  whats : s.live.map Reg.what = hs
  subs : s.live.map Reg.id = s.subs
  fresh : ∀ i, i ∈ s.subs → i < s.next
  nodup : s.subs.Nodup

theorem Held.register {s : State} {hs : List Handler} (h : Held s hs) (x : Handler) : Held (register s x) (hs ++ [x]) := by
  refine ⟨by simp [Activate.register, h.whats], by simp [Activate.register, h.subs], ?_, ?_⟩
  · intro i hi
    simp only [Activate.register, List.mem_append, List.mem_singleton] at hi ⊢
    rcases hi with hi | rfl
    · exact Nat.lt_succ_of_lt (h.fresh i hi)
    · exact Nat.lt_succ_self _
  · simp only [Activate.register]
    rw [List.nodup_append]
    refine ⟨h.nodup, by simp, ?_⟩
    intro a ha b hb
    rw [List.mem_singleton] at hb
    have := h.fresh a ha
    omega

theorem Held.registerAll (xs : List Handler) {s : State} {hs : List Handler} (h : Held s hs) :
    Held (registerAll s xs) (hs ++ xs) := by
  induction xs generalizing s hs with
  | nil => simpa [Activate.registerAll] using h
  | cons x xs ih =>
    have := ih (h.register x)
    simpa [Activate.registerAll] using this

theorem registerAll_rest (xs : List Handler) (s : State) :
    (registerAll s xs).waiting = s.waiting ∧ (registerAll s xs).checks = s.checks ∧
    (registerAll s xs).calls = s.calls ∧ (registerAll s xs).activations = s.activations := by
  induction xs generalizing s with
  | nil => exact ⟨rfl, rfl, rfl, rfl⟩
  | cons x xs ih => exact ih (register s x)

/-- What holds between actions. -/
structure Inv (s : State) (st : Status) : Prop where
  held : Held s (if st = .active then all else first)
  waiting : s.waiting = if st = .starting then 1 else 0

theorem inv_activate {s : State} (h : Held s []) (hw : s.waiting = 0) : Inv (activate s) .starting := by
  have hr := h.registerAll [.factory, .activeEditor, .saveInit]
  obtain ⟨e1, _, _, _⟩ := registerAll_rest [.factory, .activeEditor, .saveInit] s
  refine ⟨⟨hr.whats, hr.subs, hr.fresh, hr.nodup⟩, ?_⟩
  show (registerAll s _).waiting + 1 = _
  rw [e1, hw]
  rfl

theorem inv_start : Inv start .starting :=
  inv_activate ⟨rfl, rfl, (by intro i hi; cases hi), List.nodup_nil⟩ rfl

theorem any_reload {s : State} {hs : List Handler} (h : Held s hs) :
    (s.live.any fun r => r.what == .reload) = decide (Handler.reload ∈ hs) := by
  rw [← h.whats]
  rw [Bool.eq_iff_iff, List.any_eq_true, decide_eq_true_eq, List.mem_map]
  constructor
  · rintro ⟨r, hr, e⟩; exact ⟨r, hr, by simpa using e⟩
  · rintro ⟨r, hr, e⟩; exact ⟨r, hr, by simp [e]⟩

/-- The reload disposes of everything. -/
theorem held_disposed {s : State} {hs : List Handler} (h : Held s hs) (n : Nat) :
    Held { s with calls := n, live := s.live.filter (fun r => !s.subs.contains r.id), subs := [] } [] := by
  have e : s.live.filter (fun r => !s.subs.contains r.id) = [] := by
    rw [List.filter_eq_nil_iff]
    intro r hr
    have : r.id ∈ s.subs := by rw [← h.subs]; exact List.mem_map_of_mem hr
    simp [this]
  refine ⟨?_, ?_, (by intro i hi; cases hi), List.nodup_nil⟩ <;> (show (s.live.filter _).map _ = []; rw [e]; rfl)

theorem Held.of_eq {s s' : State} {hs : List Handler} (h : Held s hs) (h1 : s'.live = s.live) (h2 : s'.subs = s.subs)
    (h3 : s'.next = s.next) : Held s' hs :=
  ⟨by rw [h1]; exact h.whats, by rw [h1, h2]; exact h.subs, by rw [h2, h3]; exact h.fresh, by rw [h2]; exact h.nodup⟩

theorem Inv.of_eq {s s' : State} {st : Status} (h : Inv s st) (h1 : s'.live = s.live) (h2 : s'.subs = s.subs)
    (h3 : s'.next = s.next) (h4 : s'.waiting = s.waiting) : Inv s' st :=
  ⟨h.held.of_eq h1 h2 h3, by rw [h4]; exact h.waiting⟩

theorem checked_rest (s : State) (i : Nat) (r : Checked) :
    (checked s i r).live = s.live ∧ (checked s i r).subs = s.subs ∧ (checked s i r).next = s.next ∧
    (checked s i r).waiting = s.waiting ∧ (checked s i r).activations = s.activations := by
  unfold checked
  cases s.checks[i]? with
  | none => exact ⟨rfl, rfl, rfl, rfl, rfl⟩
  | some rest => cases r <;> exact ⟨rfl, rfl, rfl, rfl, rfl⟩

theorem next_other (st : Status) (n : Nat) (a : Action) (h1 : ∀ ok, a ≠ .settle ok) (h2 : a ≠ .deliver) :
    st.next n a = st := by
  cases st <;> cases a <;> simp_all [Status.next]

theorem inv_step {s : State} {st : Status} (h : Inv s st) (a : Action) : Inv (step s a) (st.next s.calls a) := by
  cases a with
  | settle ok =>
    cases st with
    | starting =>
      have hw : s.waiting = 1 := h.waiting
      have hh : Held s first := h.held
      have hany : (s.live.any fun r => r.what == .reload) = false := by rw [any_reload hh]; decide
      cases ok with
      | true =>
        have hh' : Held { s with waiting := s.waiting - 1 } first := hh.of_eq rfl rfl rfl
        have hr := hh'.registerAll [.reload, .config, .create, .delete, .saveToml]
        have e := (registerAll_rest [.reload, .config, .create, .delete, .saveToml] { s with waiting := s.waiting - 1 }).1
        have he : step s (.settle true) = registerAll { s with waiting := s.waiting - 1 } [.reload, .config, .create, .delete, .saveToml] := by
          simp [step, hw, finishActivate, hany]
        rw [he]
        refine ⟨hr, ?_⟩
        rw [e]
        simp [hw, Status.next]
      | false =>
        refine ⟨?_, ?_⟩
        · exact hh.of_eq (by simp [step, hw]) (by simp [step, hw]) (by simp [step, hw])
        · simp [step, hw, Status.next]
    | active =>
      have hw : s.waiting = 0 := h.waiting
      have : step s (.settle ok) = s := by simp [step, hw]
      rw [this]; cases ok <;> exact h
    | failed =>
      have hw : s.waiting = 0 := h.waiting
      have : step s (.settle ok) = s := by simp [step, hw]
      rw [this]; cases ok <;> exact h
  | config =>
    rw [next_other _ _ _ (by intro ok h; cases h) (by intro h; cases h)]
    exact h.of_eq rfl rfl rfl rfl
  | files x fs =>
    rw [next_other _ _ _ (by intro ok h; cases h) (by intro h; cases h)]
    unfold step
    by_cases hx : x = .create ∨ x = .delete ∨ x = .saveToml
    · simp only [hx, if_true]; exact h.of_eq rfl rfl rfl rfl
    · simp only [hx, if_false]; exact h
  | check i r =>
    rw [next_other _ _ _ (by intro ok h; cases h) (by intro h; cases h)]
    obtain ⟨e1, e2, e3, e4, _⟩ := checked_rest s i r
    exact h.of_eq e1 e2 e3 e4
  | user =>
    rw [next_other _ _ _ (by intro ok h; cases h) (by intro h; cases h)]
    exact h.of_eq rfl rfl rfl rfl
  | deliver =>
    by_cases hc : s.calls = 0
    · have e1 : step s .deliver = s := by simp [step, hc]
      have e2 : st.next s.calls .deliver = st := by cases st <;> simp [Status.next, hc]
      rw [e1, e2]; exact h
    · cases st with
      | active =>
        have hh : Held s all := h.held
        have hany : (s.live.any fun r => r.what == .reload) = true := by rw [any_reload hh]; decide
        have e2 : Status.next .active s.calls .deliver = .starting := by simp [Status.next, hc]
        have e1 : step s .deliver = reload { s with calls := s.calls - 1 } := by simp [step, hc, hany]
        rw [e1, e2]
        exact inv_activate (held_disposed hh _) h.waiting
      | starting =>
        have hh : Held s first := h.held
        have hany : (s.live.any fun r => r.what == .reload) = false := by rw [any_reload hh]; decide
        have e1 : step s .deliver = { s with calls := s.calls - 1 } := by simp [step, hc, hany]
        rw [e1]
        exact h.of_eq rfl rfl rfl rfl
      | failed =>
        have hh : Held s first := h.held
        have hany : (s.live.any fun r => r.what == .reload) = false := by rw [any_reload hh]; decide
        have e1 : step s .deliver = { s with calls := s.calls - 1 } := by simp [step, hc, hany]
        rw [e1]
        exact h.of_eq rfl rfl rfl rfl

/-- The status after a history, as a user sees it. -/
def statusFrom (s : State) (st : Status) : List Action → Status
  | [] => st
  | a :: as => statusFrom (step s a) (st.next s.calls a) as

def status (acts : List Action) : Status := statusFrom start .starting acts

theorem inv_from {s : State} {st : Status} (h : Inv s st) (acts : List Action) :
    Inv (acts.foldl step s) (statusFrom s st acts) := by
  induction acts generalizing s st with
  | nil => exact h
  | cons a as ih => exact ih (inv_step h a)

theorem inv_run (acts : List Action) : Inv (run acts) (status acts) := inv_from inv_start acts

/-- **C81.**  At any time: each handler is registered at most once, everything that is registered will be
disposed by the next reload or when the extension is stopped, and there is at most one activation under way. -/
theorem registered_once (acts : List Action) :
    ((run acts).live.map Reg.what).Nodup ∧
    (∀ r, r ∈ (run acts).live → r.id ∈ (run acts).subs) ∧
    ((run acts).live.map Reg.id).Nodup ∧ (run acts).waiting ≤ 1 := by
  have h := inv_run acts
  refine ⟨?_, ?_, ?_, ?_⟩
  · rw [h.held.whats]; split <;> decide
  · intro r hr; rw [← h.held.subs]; exact List.mem_map_of_mem hr
  · rw [h.held.subs]; exact h.held.nodup
  · rw [h.waiting]; split <;> decide

/-- **C81.**  An active extension has all its handlers, each once; otherwise it has those that make clients. -/
theorem registered_exactly (acts : List Action) :
    (run acts).live.map Reg.what = if status acts = .active then all else first := (inv_run acts).held.whats

theorem deliver_activations (s : State) : (step s .deliver).activations =
    if s.calls ≠ 0 ∧ (s.live.any fun r => r.what == .reload) = true then s.activations + 1 else s.activations := by
  unfold step
  by_cases hc : s.calls = 0
  · simp [hc]
  · cases hany : s.live.any fun r => r.what == .reload with
    | true =>
      simp only [hc, if_false, hany, if_true, ne_eq, not_false_eq_true, and_self]
      rfl
    | false => simp [hc, hany]

theorem times_active {acts : List Action} (h : status acts = .active) (x : Handler) : times (run acts) x = 1 := by
  have hw := registered_exactly acts
  rw [if_pos h] at hw
  have e : times (run acts) x = (((run acts).live.map Reg.what).filter fun w => w == x).length := by
    unfold times
    rw [List.filter_map, List.length_map]
    rfl
  rw [e, hw]
  cases x <;> decide

/-- How many of the files of an event are checked, if no check is rejected. -/
theorem goOn_counts (files : List Bool) :
    (goOn files = [] ∧ true ∉ files) ∨ ∃ rest, goOn files = [rest] ∧ files.count true = rest.count true + 1 := by
  induction files with
  | nil => exact Or.inl ⟨rfl, by simp⟩
  | cons b files ih =>
    cases b with
    | true => exact Or.inr ⟨files, rfl, by simp⟩
    | false =>
      have e : goOn (false :: files) = goOn files := rfl
      rw [e]
      rcases ih with ⟨h1, h2⟩ | ⟨rest, h1, h2⟩
      · exact Or.inl ⟨h1, by simp [h2]⟩
      · exact Or.inr ⟨rest, h1, by simpa using h2⟩

/-- **C82**, what holds: while the extension is active a change of its settings asks for one reload, and
files that are created, deleted or saved are checked if a `Dove.toml` is among them, once for the event; each
file that turns out valid asks for one reload, and the files behind it are looked at whatever the result. -/
theorem changes_ask (acts : List Action) (h : status acts = .active) :
    (run (acts ++ [.user])).calls = (run acts).calls + 1 ∧
    (run (acts ++ [.config])).calls = (run acts).calls + 1 ∧
    (∀ x files, x = .create ∨ x = .delete ∨ x = .saveToml →
      ((run (acts ++ [.files x files])).checks = (run acts).checks ∧ true ∉ files) ∨
      ∃ rest, (run (acts ++ [.files x files])).checks = (run acts).checks ++ [rest] ∧
        files.count true = rest.count true + 1) ∧
    (∀ i rest, (run acts).checks[i]? = some rest →
      (run (acts ++ [.check i .valid])).calls = (run acts).calls + 1 ∧
      ∀ r, r ≠ .rejected → (run (acts ++ [.check i r])).checks = (run acts).checks.eraseIdx i ++ goOn rest) := by
  have e : ∀ a, run (acts ++ [a]) = step (run acts) a := by intro a; simp [run, List.foldl_append]
  refine ⟨(by rw [e]; rfl), ?_, ?_, ?_⟩
  · rw [e]
    show (run acts).calls + times (run acts) .config = _
    rw [times_active h]
  · intro x files hx
    rw [e]
    have : (step (run acts) (.files x files)).checks = (run acts).checks ++ goOn files := by
      simp only [step, hx, if_true]
      rw [times_active h]
      simp
    rw [this]
    rcases goOn_counts files with ⟨h1, h2⟩ | ⟨rest, h1, h2⟩
    · exact Or.inl ⟨by rw [h1]; simp, h2⟩
    · exact Or.inr ⟨rest, by rw [h1], h2⟩
  · intro i rest hi
    refine ⟨?_, ?_⟩
    · rw [e]
      show (checked (run acts) i .valid).calls = _
      unfold checked
      rw [hi]
    · intro r hr
      rw [e]
      show (checked (run acts) i r).checks = _
      unfold checked
      rw [hi]
      cases r with
      | rejected => exact absurd rfl hr
      | valid => rfl
      | invalid => rfl

/-- **C82**: nothing else asks for a reload: not a file that is saved, nor a `Dove.toml` that turns out to be
invalid. -/
theorem only_changes_ask (acts : List Action) (a : Action) (h : (run acts).calls < (run (acts ++ [a])).calls) :
    a = .user ∨ (a = .config ∧ status acts = .active) ∨ ∃ i, a = .check i .valid ∧ i < (run acts).checks.length := by
  have e : run (acts ++ [a]) = step (run acts) a := by simp [run, List.foldl_append]
  rw [e] at h
  cases a with
  | user => exact Or.inl rfl
  | config =>
    refine Or.inr (Or.inl ⟨rfl, ?_⟩)
    apply Classical.byContradiction
    intro hn
    have hw := registered_exactly acts
    rw [if_neg hn] at hw
    have e : times (run acts) .config = (((run acts).live.map Reg.what).filter fun w => w == .config).length := by
      unfold times
      rw [List.filter_map, List.length_map]
      rfl
    rw [hw] at e
    have e2 : (first.filter fun w => w == Handler.config).length = 0 := by decide
    have : (run acts).calls < (run acts).calls + times (run acts) .config := h
    omega
  | check i r =>
    have h' : (run acts).calls < (checked (run acts) i r).calls := h
    unfold checked at h'
    cases hi : (run acts).checks[i]? with
    | none => rw [hi] at h'; exact absurd h' (Nat.lt_irrefl _)
    | some rest =>
      rw [hi] at h'
      cases r with
      | valid => exact Or.inr (Or.inr ⟨i, rfl, (List.getElem?_eq_some_iff.1 hi).1⟩)
      | invalid => exact absurd h' (Nat.lt_irrefl _)
      | rejected => exact absurd h' (Nat.lt_irrefl _)
  | files x fs =>
    exfalso
    by_cases hx : x = .create ∨ x = .delete ∨ x = .saveToml
    · simp only [step, hx, if_true] at h
      exact Nat.lt_irrefl _ h
    · simp only [step, hx, if_false] at h
      exact Nat.lt_irrefl _ h
  | settle ok =>
    exfalso
    by_cases hw : (run acts).waiting = 0
    · simp [step, hw] at h
    · cases ok with
      | false => simp [step, hw] at h
      | true =>
        simp only [step, hw, if_false, if_true, finishActivate] at h
        split at h
        · exact Nat.lt_irrefl _ h
        · rw [(registerAll_rest _ _).2.2.1] at h
          exact Nat.lt_irrefl _ h
  | deliver =>
    exfalso
    by_cases hc : (run acts).calls = 0
    · simp [step, hc] at h
    · simp only [step, hc, if_false] at h
      split at h
      · have : (reload { run acts with calls := (run acts).calls - 1 }).calls = (run acts).calls - 1 :=
          (registerAll_rest _ _).2.2.1
        rw [this] at h
        omega
      · have : (run acts).calls < (run acts).calls - 1 := h
        omega

/-- A valid `Dove.toml` asks. -/
example : (run [.settle true, .files .saveToml [true]]).calls <
    (run ([.settle true, .files .saveToml [true]] ++ [.check 0 .valid])).calls := by decide

/-- **C82**, partial: a call of the reload that arrives begins a new activation exactly if the extension is
active.  Missing: calls that arrive while it is being activated (`change_lost`) or after an activation has
failed (`failed_forever`). -/
theorem reload_iff_partial (acts : List Action) (hc : (run acts).calls ≠ 0) :
    (run (acts ++ [.deliver])).activations = (run acts).activations + 1 ↔ status acts = .active := by
  have h := inv_run acts
  have e : run (acts ++ [.deliver]) = step (run acts) .deliver := by simp [run, List.foldl_append]
  rw [e, deliver_activations, any_reload h.held]
  by_cases hs : status acts = .active
  · have : Handler.reload ∈ all := by decide
    simp [hs, hc, this]
  · have : Handler.reload ∉ first := by decide
    simp [hs, this]

theorem failed_stays (s : State) (acts : List Action) : statusFrom s .failed acts = .failed := by
  induction acts generalizing s with
  | nil => rfl
  | cons a as ih =>
    have : Status.next .failed s.calls a = .failed := by cases a <;> rfl
    simp only [statusFrom, this]
    exact ih _

theorem statusFrom_append (s : State) (st : Status) (as bs : List Action) :
    statusFrom s st (as ++ bs) = statusFrom (as.foldl step s) (statusFrom s st as) bs := by
  induction as generalizing s st with
  | nil => rfl
  | cons a as ih => exact ih _ _

theorem step_activations {s : State} {st : Status} (h : Inv s st) (hs : st = .failed) (a : Action) :
    (step s a).activations = s.activations := by
  cases a with
  | settle ok => have hw : s.waiting = 0 := by rw [h.waiting, hs]; rfl
                 simp [step, hw]
  | config => rfl
  | files x fs =>
    by_cases hx : x = .create ∨ x = .delete ∨ x = .saveToml
    · simp only [step, hx, if_true]
    · simp only [step, hx, if_false]
  | check i r =>
    exact (checked_rest s i r).2.2.2.2
  | user => rfl
  | deliver =>
    rw [deliver_activations, any_reload h.held, hs]
    have : Handler.reload ∉ first := by decide
    simp [this]

/-- **C82** fails: once an activation has failed, for instance because the executables could not be fetched,
nothing reloads the extension: neither the user's command nor any change. -/
theorem failed_forever (acts later : List Action) (h : status acts = .failed) :
    (run (acts ++ later)).activations = (run acts).activations := by
  have gen : ∀ (later : List Action) (s : State), Inv s .failed → (later.foldl step s).activations = s.activations := by
    intro later
    induction later with
    | nil => intro s _; rfl
    | cons a as ih =>
      intro s hi
      have hn : Status.next .failed s.calls a = .failed := by cases a <;> rfl
      have := inv_step hi a
      rw [hn] at this
      rw [List.foldl_cons, ih _ this, step_activations hi rfl]
  have hi := inv_run acts
  rw [h] at hi
  have := gen later (run acts) hi
  simpa [run, List.foldl_append] using this

/-- **C82** fails: a `Dove.toml` is saved while the extension is active; the settings are changed, which
reloads it; the check of the file succeeds before that activation is done, and the reload is lost: the
activation, which may have read the old file, is the last one. -/
theorem change_lost : ∃ acts, status acts = .active ∧
    (run acts).activations = 2 ∧ (run acts).calls = 0 ∧ (run acts).checks = [] ∧
    acts = [.settle true, .files .saveToml [true], .config, .deliver, .check 0 .valid, .deliver, .settle true] :=
  ⟨_, by decide, by decide, by decide, by decide, rfl⟩

/-- An active extension is reloaded by a saved `Dove.toml`. -/
example : (run [.settle true, .files .saveToml [true], .check 0 .valid, .deliver]).activations = 2 := by decide

example : (run [.settle true, .user]).calls ≠ 0 ∧ status [.settle true, .user] = .active := by decide

example : status [.settle false] = .failed := by decide

end Verif.Editor.Activate
