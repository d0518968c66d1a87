import Verif.Editor.TraceModel
import Verif.Editor.Activate

set_option autoImplicit false

/-!
C124: the trace of the extension follows its setting (violated for changes while it is activated, and after a
failure).
-/

namespace Verif.Editor.Trace

open Activate (Action)
open Activate.Spec (Status)

namespace Spec

/-- The value of the setting after some events. -/
def settingAfter (b : Bool) (evs : List Event) : Bool :=
  evs.foldl (fun b e => match e with | .set v => v | _ => b) b

/-- What the events are for the activation: setting the value it has is no change. -/
def actions (b : Bool) : List Event → List Action
  | [] => []
  | .set v :: evs => if v = b then actions b evs else .config :: actions v evs
  | .act a :: evs => a :: actions b evs
  | .say _ _ :: evs => actions b evs

/-- The status a user sees. -/
def status (b : Bool) (evs : List Event) : Status := Activate.status (actions b evs)

/-- The messages that are not for tracing. -/
def told (evs : List Event) : List Line :=
  evs.filterMap fun
    | .say .debug _ => none
    | .say level text => some ⟨level, text⟩
    | _ => none

/-- Whether a message for tracing is written now. -/
def Traces (b : Bool) (evs : List Event) (yes : Bool) : Prop :=
  ∀ text, (run b (evs ++ [.say .debug text])).log.lines =
    (run b evs).log.lines ++ if yes then [⟨.debug, text⟩] else []

end Spec

open Spec

theorem run_snoc (b : Bool) (evs : List Event) (e : Event) : run b (evs ++ [e]) = step (run b evs) e := by
  simp [run, List.foldl_append]

theorem traces_enabled (b : Bool) (evs : List Event) : Traces b evs (run b evs).log.enabled := by
  intro text
  rw [run_snoc]
  show ((run b evs).log.say .debug text).lines = _
  unfold Log.say
  cases (run b evs).log.enabled <;> simp [Log.write]

/-! ### The log -/

theorem say_enabled (l : Log) (level : Level) (text : String) : (l.say level text).enabled = l.enabled := by
  cases level <;> simp only [Log.say] <;> first | rfl | (split <;> rfl)

theorem sayTimes_enabled (n : Nat) (l : Log) (level : Level) (text : String) :
    (l.sayTimes n level text).enabled = l.enabled := by
  induction n generalizing l with
  | zero => rfl
  | succ n ih => exact (ih _).trans (say_enabled _ _ _)

theorem activating_enabled (l : Log) (b : Bool) : (l.activating b).enabled = b := say_enabled _ _ _

theorem reloading_enabled (l : Log) (b : Bool) : (l.reloading b).enabled = b := activating_enabled _ _

/-- The lines that are not for tracing, and how often the channel was brought up. -/
def others (l : Log) : List Line × Nat := (l.lines.filter fun x => x.level ≠ .debug, l.shown)

theorem say_debug_others (l : Log) (text : String) : others (l.say .debug text) = others l := by
  simp only [Log.say]
  split
  · rfl
  · simp [others, Log.write]

theorem sayTimes_others (n : Nat) (l : Log) (text : String) : others (l.sayTimes n .debug text) = others l := by
  induction n generalizing l with
  | zero => rfl
  | succ n ih => exact (ih _).trans (say_debug_others _ _)

theorem activating_others (l : Log) (b : Bool) : others (l.activating b) = others l := say_debug_others _ _

theorem reloading_others (l : Log) (b : Bool) : others (l.reloading b) = others l := by
  unfold Log.reloading
  rw [activating_others, say_debug_others, say_debug_others]

/-! ### The steps -/

theorem settingAfter_snoc (b : Bool) (evs : List Event) (e : Event) :
    settingAfter b (evs ++ [e]) = match e with | .set v => v | _ => settingAfter b evs := by
  simp [settingAfter, List.foldl_append]

theorem step_setting (s : State) (e : Event) : (step s e).setting = match e with | .set v => v | _ => s.setting := by
  cases e with
  | set v => simp only [step]; split <;> simp_all [changed]
  | act a => cases a <;> rfl
  | say l t => rfl

theorem run_setting (b : Bool) (evs : List Event) : (run b evs).setting = settingAfter b evs := by
  generalize hn : evs.length = n
  induction n generalizing evs with
  | zero =>
    have := List.length_eq_zero_iff.1 hn
    subst this
    rfl
  | succ n ih =>
    obtain ⟨init, e, rfl⟩ : ∃ init e, evs = init ++ [e] :=
      ⟨evs.dropLast, evs.getLast (by rintro rfl; cases hn), (List.dropLast_concat_getLast _).symm⟩
    have hl : init.length = n := by simpa using hn
    rw [run_snoc, step_setting, settingAfter_snoc, ih init hl]

/-- The activation goes its own way. -/
theorem base_from (s : State) (evs : List Event) :
    (evs.foldl step s).base = (actions s.setting evs).foldl Activate.step s.base := by
  induction evs generalizing s with
  | nil => rfl
  | cons e evs ih =>
    rw [List.foldl_cons, ih]
    cases e with
    | set v =>
      simp only [step, actions]
      split
      · rfl
      · rfl
    | act a => cases a <;> rfl
    | say l t => rfl

theorem run_base (b : Bool) (evs : List Event) : (run b evs).base = Activate.run (actions b evs) := base_from (start b) evs

theorem changed_activations (s : State) : (changed s).base.activations = s.base.activations := rfl

theorem deliver_activations (s : State) : (step s (.act .deliver)).base.activations =
    if arrives s.base then s.base.activations + 1 else s.base.activations := by
  show (Activate.step s.base .deliver).activations = _
  rw [Activate.deliver_activations]
  unfold arrives
  by_cases h1 : s.base.calls = 0 <;> cases h2 : s.base.live.any fun r => r.what == .reload <;> simp [h1]

/-- A step begins a new activation, with the setting of that time, or the trace stays as it is. -/
theorem step_cases (s : State) (e : Event) :
    ((step s e).base.activations = s.base.activations ∧ (step s e).log.enabled = s.log.enabled) ∨
      ((step s e).base.activations = s.base.activations + 1 ∧ (step s e).log.enabled = (step s e).setting) := by
  cases e with
  | set v =>
    refine .inl ?_
    simp only [step]
    split
    · exact ⟨rfl, rfl⟩
    · exact ⟨rfl, sayTimes_enabled _ _ _ _⟩
  | say l t => exact .inl ⟨rfl, say_enabled _ _ _⟩
  | act a =>
    cases a with
    | config => exact .inl ⟨rfl, sayTimes_enabled _ _ _ _⟩
    | deliver =>
      rw [deliver_activations]
      simp only [step]
      cases arrives s.base with
      | true => exact .inr ⟨rfl, reloading_enabled _ _⟩
      | false => exact .inl ⟨rfl, rfl⟩
    | settle ok =>
      refine .inl ⟨?_, ?_⟩
      · show (Activate.step s.base (.settle ok)).activations = _
        simp only [Activate.step]
        split
        · rfl
        · cases ok with
          | false => rfl
          | true =>
            simp only [if_true]
            unfold Activate.finishActivate
            split
            · rfl
            · exact (Activate.registerAll_rest _ _).2.2.2
      · simp only [step]
        split
        · exact say_enabled _ _ _
        · rfl
    | files h fs =>
      refine .inl ⟨?_, rfl⟩
      show (Activate.step s.base (.files h fs)).activations = _
      simp only [Activate.step]
      split <;> rfl
    | check i r => exact .inl ⟨(Activate.checked_rest s.base i r).2.2.2.2, rfl⟩
    | user => exact .inl ⟨rfl, rfl⟩

/-- **C124, what is written**: at any time a message for tracing is written exactly if the setting was on when the
latest activation began. -/
theorem trace_follows_activation (b : Bool) (evs : List Event) :
    ∃ before after, evs = before ++ after ∧
      (∀ mid, mid <+: after → (run b (before ++ mid)).base.activations = (run b before).base.activations) ∧
      (before = [] ∨ ∃ init e, before = init ++ [e] ∧
        (run b before).base.activations = (run b init).base.activations + 1) ∧
      Traces b evs (settingAfter b before) := by
  suffices h : ∃ before after, evs = before ++ after ∧
      (∀ mid, mid <+: after → (run b (before ++ mid)).base.activations = (run b before).base.activations) ∧
      (before = [] ∨ ∃ init e, before = init ++ [e] ∧
        (run b before).base.activations = (run b init).base.activations + 1) ∧
      (run b evs).log.enabled = settingAfter b before by
    obtain ⟨before, after, h1, h2, h3, h4⟩ := h
    exact ⟨before, after, h1, h2, h3, h4 ▸ traces_enabled b evs⟩
  generalize hn : evs.length = n
  induction n generalizing evs with
  | zero =>
    have := List.length_eq_zero_iff.1 hn
    subst this
    refine ⟨[], [], rfl, ?_, .inl rfl, activating_enabled _ _⟩
    intro mid hm
    rw [List.prefix_nil.1 hm]
    rfl
  | succ n ih =>
    obtain ⟨init, e, rfl⟩ : ∃ init e, evs = init ++ [e] :=
      ⟨evs.dropLast, evs.getLast (by rintro rfl; cases hn), (List.dropLast_concat_getLast _).symm⟩
    have hl : init.length = n := by simpa using hn
    rcases step_cases (run b init) e with ⟨h1, h2⟩ | ⟨h1, h2⟩
    · obtain ⟨before, after, rfl, g2, g3, g4⟩ := ih init hl
      refine ⟨before, after ++ [e], by simp, ?_, g3, ?_⟩
      · intro mid hm
        rcases List.prefix_concat_iff.1 hm with rfl | hm
        · rw [← List.append_assoc, run_snoc, h1]
          exact g2 after (List.prefix_refl _)
        · exact g2 mid hm
      · rw [run_snoc, h2, g4]
    · refine ⟨init ++ [e], [], by simp, ?_, .inr ⟨init, e, rfl, by rw [run_snoc, h1]⟩, ?_⟩
      · intro mid hm
        rw [List.prefix_nil.1 hm, List.append_nil]
      · rw [run_snoc, h2, ← run_snoc, run_setting]

/-- **C124, what is always written**: messages that are not for tracing are written whatever the setting is, each
once and in order, and the channel is brought up for each error. -/
theorem errors_always_written (b : Bool) (evs : List Event) :
    ((run b evs).log.lines.filter fun x => x.level ≠ .debug) = told evs ∧
      (run b evs).log.shown = ((told evs).filter fun x => x.level = .error).length := by
  suffices h : others (run b evs).log = (told evs, ((told evs).filter fun x => x.level = .error).length) by
    exact ⟨congrArg Prod.fst h, congrArg Prod.snd h⟩
  generalize hn : evs.length = n
  induction n generalizing evs with
  | zero =>
    have := List.length_eq_zero_iff.1 hn
    subst this
    exact activating_others _ _
  | succ n ih =>
    obtain ⟨init, e, rfl⟩ : ∃ init e, evs = init ++ [e] :=
      ⟨evs.dropLast, evs.getLast (by rintro rfl; cases hn), (List.dropLast_concat_getLast _).symm⟩
    have hl : init.length = n := by simpa using hn
    have hi := ih init hl
    rw [run_snoc]
    have htold : told (init ++ [e]) = told init ++ told [e] := by simp [told]
    have quiet : told [e] = [] → others (step (run b init) e).log = others (run b init).log →
        others (step (run b init) e).log =
          (told (init ++ [e]), ((told (init ++ [e])).filter fun x => x.level = .error).length) := by
      intro h1 h2
      rw [h2, htold, h1, List.append_nil]
      exact hi
    cases e with
    | set v =>
      refine quiet rfl ?_
      simp only [step]
      split
      · rfl
      · exact sayTimes_others _ _ _
    | act a =>
      refine quiet rfl ?_
      cases a with
      | config => exact sayTimes_others _ _ _
      | deliver => simp only [step]; split <;> first | exact reloading_others _ _ | rfl
      | settle ok => simp only [step]; split <;> first | exact say_debug_others _ _ | rfl
      | files _ _ => rfl
      | check _ _ => rfl
      | user => rfl
    | say level text =>
      cases level with
      | debug => exact quiet rfl (say_debug_others _ _)
      | info =>
        rw [htold]
        have h1 := congrArg Prod.fst hi
        have h2 := congrArg Prod.snd hi
        simp only [others] at h1 h2
        simp only [step, Log.say, Log.write, others, List.filter_append, h1, h2]
        simp [told]
      | warn =>
        rw [htold]
        have h1 := congrArg Prod.fst hi
        have h2 := congrArg Prod.snd hi
        simp only [others] at h1 h2
        simp only [step, Log.say, Log.write, others, List.filter_append, h1, h2]
        simp [told]
      | error =>
        rw [htold]
        have h1 := congrArg Prod.fst hi
        have h2 := congrArg Prod.snd hi
        simp only [others] at h1 h2
        simp only [step, Log.say, Log.write, others, List.filter_append, h1, h2]
        simp [told]

/-- **C124, a change of the setting**, partial: while the extension is active, a change takes effect with the reload
it asks for.  Missing: changes while it is being activated (`change_of_trace_lost`) and after a failure
(`trace_after_failure`). -/
theorem trace_changes_partial (b : Bool) (evs : List Event) (h : status b evs = .active) (v : Bool)
    (hv : v ≠ settingAfter b evs) : Traces b (evs ++ [.set v, .act .deliver]) v := by
  have hs : (run b (evs ++ [.set v])).base = Activate.step (run b evs).base .config := by
    rw [run_snoc]
    simp only [step, run_setting, if_neg hv, changed]
  have hcalls : (run b (evs ++ [.set v])).base.calls ≠ 0 := by
    rw [hs]
    show (run b evs).base.calls + Activate.times (run b evs).base .config ≠ 0
    rw [run_base, Activate.times_active h]
    omega
  have hlive : ((run b (evs ++ [.set v])).base.live.any fun r => r.what == .reload) = true := by
    rw [hs]
    show ((run b evs).base.live.any fun r => r.what == .reload) = true
    rw [run_base, Activate.any_reload (Activate.inv_run _).held]
    have h' : Activate.status (actions b evs) = .active := h
    rw [h']
    decide
  have harr : arrives (run b (evs ++ [.set v])).base = true := by
    unfold arrives
    rw [hlive]
    simpa using hcalls
  have e : evs ++ [.set v, .act .deliver] = (evs ++ [.set v]) ++ [.act .deliver] := by simp
  have he : (run b (evs ++ [.set v, .act .deliver])).log.enabled = v := by
    rw [e, run_snoc]
    simp only [step, harr, if_true]
    rw [reloading_enabled, run_setting, settingAfter_snoc]
  have := traces_enabled b (evs ++ [.set v, .act .deliver])
  rwa [he] at this

/-- **C124 does not hold**: the setting is turned on while the extension is being activated; then it is active and at
rest, the setting is on, and nothing is traced. -/
theorem change_of_trace_lost : ∃ evs, status false evs = .active ∧ settingAfter false evs = true ∧
    (run false evs).base.calls = 0 ∧ Traces false evs false ∧ evs = [.set true, .act (.settle true)] :=
  ⟨_, by decide, by decide, by decide, traces_enabled false [.set true, .act (.settle true)], rfl⟩

theorem actions_append (b : Bool) (xs ys : List Event) :
    actions b (xs ++ ys) = actions b xs ++ actions (settingAfter b xs) ys := by
  induction xs generalizing b with
  | nil => rfl
  | cons e xs ih =>
    cases e with
    | set v =>
      simp only [List.cons_append, actions, settingAfter, List.foldl_cons]
      by_cases hv : v = b
      · subst hv; rw [if_pos rfl, if_pos rfl]; exact ih _
      · rw [if_neg hv, if_neg hv, ih]; rfl
    | act a => simp only [List.cons_append, actions, ih]; rfl
    | say l t => exact ih b

/-- **C124 does not hold**: once an activation has failed the setting has no effect, whatever happens, although the
message of the failure asks the user to turn it on (bootstrap.ts:39-41). -/
theorem trace_after_failure (b : Bool) (evs later : List Event) (h : status b evs = .failed) (yes : Bool)
    (ht : Traces b evs yes) : Traces b (evs ++ later) yes := by
  have hyes : (run b evs).log.enabled = yes := by
    have h1 := ht ""
    have h2 := traces_enabled b evs ""
    rw [h1] at h2
    have h2 := List.append_cancel_left h2
    cases yes <;> cases hl : (run b evs).log.enabled <;> rw [hl] at h2 <;> first | rfl | simp at h2
  suffices hk : (run b (evs ++ later)).log.enabled = (run b evs).log.enabled by
    have := traces_enabled b (evs ++ later)
    rwa [hk, hyes] at this
  clear ht hyes
  generalize hn : later.length = n
  induction n generalizing later with
  | zero =>
    have := List.length_eq_zero_iff.1 hn
    subst this
    rw [List.append_nil]
  | succ n ih =>
    obtain ⟨init, e, rfl⟩ : ∃ init e, later = init ++ [e] :=
      ⟨later.dropLast, later.getLast (by rintro rfl; cases hn), (List.dropLast_concat_getLast _).symm⟩
    have hl : init.length = n := by simpa using hn
    have h1 := ih init hl
    have act : ∀ xs : List Event, (run b (evs ++ xs)).base.activations = (run b evs).base.activations := by
      intro xs
      rw [run_base, run_base, actions_append]
      exact Activate.failed_forever _ _ h
    rw [← h1, ← List.append_assoc, run_snoc]
    rcases step_cases (run b (evs ++ init)) e with ⟨_, h2⟩ | ⟨h2, _⟩
    · exact h2
    · rw [← run_snoc, List.append_assoc, act, act] at h2
      omega

/-- Witness of `trace_changes_partial`, and of the others: the trace is turned on and off again. -/
example : (run false [.say .debug "a", .act (.settle true), .set true, .say .error "b", .act .deliver, .say .debug "c",
      .act (.settle true), .set false, .act .deliver, .say .debug "d", .say .info "e"]).log =
    ⟨false, [⟨.error, "b"⟩, ⟨.debug, "Activating the extension..."⟩, ⟨.debug, "c"⟩,
      ⟨.debug, "Register command \"move.reload\""⟩, ⟨.debug, "move section in settings.json changed"⟩,
      ⟨.debug, "\"move.reload\" called"⟩, ⟨.debug, "Deactivating the extension..."⟩, ⟨.info, "e"⟩], 1⟩ := by decide +kernel

example : status false [.act (.settle true)] = .active ∧ true ≠ settingAfter false [.act (.settle true)] := by decide

/-- Witness of `trace_after_failure`. -/
example : status false [.act (.settle false)] = .failed ∧ Traces false [.act (.settle false)] false ∧
    settingAfter false [.act (.settle false), .set true] = true :=
  ⟨by decide, traces_enabled false [.act (.settle false)], by decide⟩

end Verif.Editor.Trace
