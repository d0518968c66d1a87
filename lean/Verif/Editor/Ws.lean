import Verif.Editor.WsModel

set_option autoImplicit false

/-!
C46: one language client per workspace folder.
-/

namespace Verif.Editor

namespace Spec

/-- The clients that were started for a folder. -/
def clientsOf (s : Ext) (folder : Folder) : List Client := s.clients.filter fun c => c.folder = folder

/-- The clients of a folder that run. -/
def runningOf (s : Ext) (folder : Folder) : List Client :=
  s.clients.filter fun c => c.folder = folder && c.running

end Spec

open Spec

/-- The task will start the client of the factory and folder, or has just done so. -/
def Task.starts (g : Nat) (f : Folder) (t : Task) : Bool :=
  decide (t.factory = g) && decide (t.folder = f) && decide (t.pc = .metadata ∨ t.pc = .startMetadata)

def Client.isOf (g : Nat) (f : Folder) (c : Client) : Bool := decide (c.factory = g) && decide (c.folder = f)

/-- Calls that may still start the client of a factory and folder, and clients of it. -/
def weight (s : Ext) (g : Nat) (f : Folder) : Nat :=
  s.tasks.countP (Task.starts g f) + s.clients.countP (Client.isOf g f)

structure Inv (s : Ext) : Prop where
  one : ∀ g f, weight s g f ≤ 1
  entry : ∀ g f, 0 < weight s g f → (s.factories g).workspaces f = true

theorem countP_set {α : Type} (p : α → Bool) (l : List α) (i : Nat) (x y : α) (h : l[i]? = some x) :
    (l.set i y).countP p + (if p x then 1 else 0) = l.countP p + (if p y then 1 else 0) := by
  induction l generalizing i with
  | nil => simp at h
  | cons a l ih =>
    cases i with
    | zero =>
      simp only [List.getElem?_cons_zero, Option.some.injEq] at h
      subst h
      simp only [List.set_cons_zero, List.countP_cons]
      omega
    | succ i =>
      simp only [List.getElem?_cons_succ] at h
      simp only [List.set_cons_succ, List.countP_cons]
      have := ih i h
      omega

theorem setFactory_tasks (s : Ext) (i : Nat) (f : Factory) : (s.setFactory i f).tasks = s.tasks := rfl
theorem setFactory_clients (s : Ext) (i : Nat) (f : Factory) : (s.setFactory i f).clients = s.clients := rfl

/-- What resuming a task does, as far as the invariant is concerned: it leaves the tasks alone and
either changes nothing, or makes an entry and will start a client, or starts it. -/
inductive Effect (s : Ext) (t : Task) : Ext × Pc → Prop
  | same (s' : Ext) (pc : Pc) : s'.tasks = s.tasks → s'.clients = s.clients → s'.current = s.current →
      (∀ g f, (s'.factories g).workspaces f = (s.factories g).workspaces f) →
      (pc = .metadata ∨ pc = .startMetadata → t.pc = .metadata ∨ t.pc = .startMetadata) → Effect s t (s', pc)
  | entry (s' : Ext) : s'.tasks = s.tasks → s'.clients = s.clients → s'.current = s.current →
      (s.factories t.factory).workspaces t.folder = false →
      (∀ g f, (s'.factories g).workspaces f = ((s.factories g).workspaces f || (decide (g = t.factory) && decide (f = t.folder)))) →
      t.pc ≠ .metadata → t.pc ≠ .startMetadata → Effect s t (s', .metadata)
  | start : t.pc = .startMetadata →
      Effect s t ({ s with clients := s.clients ++ [⟨t.factory, t.folder, true⟩] }, .startReturn)

theorem lookup_effect (s : Ext) (t : Task) (h1 : t.pc ≠ .metadata) (h2 : t.pc ≠ .startMetadata) :
    Effect s t (lookup s t) := by
  unfold lookup
  simp only
  split
  · next h =>
    simp only [Bool.and_eq_true, Bool.not_eq_true'] at h
    refine .entry _ rfl rfl rfl h.1 ?_ h1 h2
    intro g f
    simp only [Ext.setFactory]
    by_cases hg : g = t.factory
    · subst hg
      by_cases hf : f = t.folder <;> simp [hf]
    · simp [hg]
  · split
    · refine .same _ _ rfl rfl rfl ?_ (by simp)
      intro g f
      simp only [Ext.setFactory]
      split
      · next hg => rw [hg]
      · rfl
    · exact .same _ _ rfl rfl rfl (fun _ _ => rfl) (by simp)

theorem resume_effect (s : Ext) (t : Task) (o : Outcome) : Effect s t (resumeTask s t o) := by
  unfold resumeTask
  split
  · next hp =>
    split
    · split
      · exact lookup_effect s t (by rw [hp]; simp) (by rw [hp]; simp)
      · exact .same _ _ rfl rfl rfl (fun _ _ => rfl) (by simp)
    · exact .same _ _ rfl rfl rfl (fun _ _ => rfl) (by simp)
  · next hp =>
    split
    · exact .same _ _ rfl rfl rfl (fun _ _ => rfl) (by simp)
    · have hsame : ∀ g f, (((s.setFactory t.factory { s.factories t.factory with executables := true }).factories g).workspaces f)
          = (s.factories g).workspaces f := by
        intro g f
        simp only [Ext.setFactory]
        split
        · next hg => rw [hg]
        · rfl
      have := lookup_effect (s.setFactory t.factory { s.factories t.factory with executables := true }) t
        (by rw [hp]; simp) (by rw [hp]; simp)
      generalize lookup (s.setFactory t.factory { s.factories t.factory with executables := true }) t = r at this
      cases this with
      | same s' pc h1 h2 h3 h4 h5 =>
        exact .same _ _ h1 h2 h3 (fun g f => (h4 g f).trans (hsame g f)) h5
      | entry s' h1 h2 h3 h4 h5 h6 h7 =>
        exact .entry _ h1 h2 h3 ((hsame _ _).symm.trans h4) (fun g f => (h5 g f).trans (by rw [hsame])) h6 h7
      | start h => rw [hp] at h; cases h
  · next hp =>
    split
    · exact .same _ _ rfl rfl rfl (fun _ _ => rfl) (by simp)
    · exact .same _ _ rfl rfl rfl (fun _ _ => rfl) (fun _ => .inl hp)
  · next hp =>
    split
    · exact .start hp
    · exact .same _ _ rfl rfl rfl (fun _ _ => rfl) (by simp)
    · exact .same _ _ rfl rfl rfl (fun _ _ => rfl) (by simp)
  · refine .same _ _ rfl rfl rfl ?_ (by simp)
    intro g f
    simp only [Ext.setFactory]
    split
    · next hg => rw [hg]
    · rfl
  · exact .same _ _ rfl rfl rfl (fun _ _ => rfl) (by simp)

theorem inv_new : Inv Ext.new :=
  ⟨fun g f => by simp [weight, Ext.new], fun g f h => by simp [weight, Ext.new] at h⟩

theorem starts_pc (g : Nat) (f : Folder) (t : Task) (pc : Pc) :
    Task.starts g f { t with pc := pc } = (decide (t.factory = g) && decide (t.folder = f)
      && decide (pc = .metadata ∨ pc = .startMetadata)) := rfl

theorem step_inv (s : Ext) (a : Action) (h : Inv s) : Inv (s.step a) := by
  cases a with
  | event folder isMove =>
    have hw : ∀ g f, weight (s.step (.event folder isMove)) g f = weight s g f := by
      intro g f
      simp [weight, Ext.step, List.countP_append, List.countP_cons, Task.starts]
    exact ⟨fun g f => by rw [hw]; exact h.one g f, fun g f hp => h.entry g f (by rw [hw] at hp; exact hp)⟩
  | reload =>
    have hw : ∀ g f, weight (s.step .reload) g f = weight s g f := by
      intro g f
      simp only [weight, Ext.step, List.countP_map]
      congr 1
      congr 1
      funext c
      simp only [Function.comp, Client.isOf]
      split <;> rfl
    exact ⟨fun g f => by rw [hw]; exact h.one g f, fun g f hp => h.entry g f (by rw [hw] at hp; exact hp)⟩
  | resume i o =>
    simp only [Ext.step]
    cases ht : s.tasks[i]? with
    | none => exact h
    | some t =>
      simp only
      have he := resume_effect s t o
      generalize resumeTask s t o = r at he
      obtain ⟨s', pc⟩ := r
      simp only
      cases he with
      | same _ _ h1 h2 h3 h4 h5 =>
        have hw : ∀ g f, weight { s' with tasks := s'.tasks.set i { t with pc := pc } } g f ≤ weight s g f := by
          intro g f
          simp only [weight, h1, h2]
          have hc := countP_set (Task.starts g f) s.tasks i t { t with pc := pc } ht
          have hm : Task.starts g f { t with pc := pc } = true → Task.starts g f t = true := by
            rw [starts_pc]
            simp only [Task.starts, Bool.and_eq_true, decide_eq_true_eq]
            rintro ⟨h', hpc⟩
            exact ⟨h', h5 hpc⟩
          cases hx : Task.starts g f { t with pc := pc } with
          | false => rw [hx] at hc; simp at hc; omega
          | true => rw [hx, hm hx] at hc; omega
        refine ⟨fun g f => Nat.le_trans (hw g f) (h.one g f), fun g f hp => ?_⟩
        simp only
        rw [h4]
        exact h.entry g f (Nat.lt_of_lt_of_le hp (hw g f))
      | entry _ h1 h2 h3 h4 h5 h6 h7 =>
        have hst : ∀ g f, Task.starts g f t = false := by
          intro g f; simp [Task.starts, h6, h7]
        have hz : weight s t.factory t.folder = 0 := by
          cases hz : weight s t.factory t.folder with
          | zero => rfl
          | succ n =>
            have := h.entry t.factory t.folder (by omega)
            rw [h4] at this; cases this
        have hw : ∀ g f, weight { s' with tasks := s'.tasks.set i { t with pc := .metadata } } g f
            = weight s g f + (if g = t.factory ∧ f = t.folder then 1 else 0) := by
          intro g f
          simp only [weight, h1, h2]
          have hc := countP_set (Task.starts g f) s.tasks i t { t with pc := .metadata } ht
          rw [hst g f, starts_pc] at hc
          simp only [true_or, decide_true, Bool.and_true, Bool.and_eq_true, decide_eq_true_eq,
            Bool.false_eq_true, if_false] at hc
          have : (t.factory = g ∧ t.folder = f) ↔ (g = t.factory ∧ f = t.folder) := by
            constructor <;> rintro ⟨rfl, rfl⟩ <;> exact ⟨rfl, rfl⟩
          simp only [this] at hc
          omega
        refine ⟨fun g f => ?_, fun g f hp => ?_⟩
        · rw [hw]
          split
          · next he => rw [he.1, he.2, hz]; omega
          · exact h.one g f
        · simp only
          rw [h5]
          rw [hw] at hp
          by_cases he : g = t.factory ∧ f = t.folder
          · simp [he.1, he.2]
          · rw [if_neg he] at hp
            rw [h.entry g f hp]; rfl
      | start hp =>
        have hw : ∀ g f, weight (Ext.mk s.factories s.current (s.tasks.set i { t with pc := .startReturn })
            (s.clients ++ [⟨t.factory, t.folder, true⟩])) g f = weight s g f := by
          intro g f
          simp only [weight, List.countP_append, List.countP_cons, List.countP_nil]
          have hc := countP_set (Task.starts g f) s.tasks i t { t with pc := .startReturn } ht
          have h1 : Client.isOf g f ⟨t.factory, t.folder, true⟩ = Task.starts g f t := by
            simp [Task.starts, Client.isOf, hp]
          have h2 : Task.starts g f { t with pc := .startReturn } = false := by
            simp [Task.starts]
          rw [h1]
          rw [h2] at hc
          simp only [Bool.false_eq_true, if_false] at hc
          omega
        refine ⟨fun g f => Nat.le_trans (Nat.le_of_eq (hw g f)) (h.one g f), fun g f hpos => ?_⟩
        exact h.entry g f (by rw [← hw]; exact hpos)

theorem run_inv (acts : List Action) (s : Ext) (h : Inv s) : Inv (s.run acts) := by
  induction acts generalizing s with
  | nil => exact h
  | cons a acts ih => exact ih _ (step_inv s a h)

theorem step_resume (s : Ext) (i : Nat) (o : Outcome) (t : Task) (h : s.tasks[i]? = some t) :
    s.step (.resume i o) = { (resumeTask s t o).1 with
      tasks := (resumeTask s t o).1.tasks.set i { t with pc := (resumeTask s t o).2 } } := by
  simp [Ext.step, h]

theorem step_resume_none (s : Ext) (i : Nat) (o : Outcome) (h : s.tasks[i]? = none) :
    s.step (.resume i o) = s := by
  simp [Ext.step, h]

theorem current_of_resume (s : Ext) (i : Nat) (o : Outcome) : (s.step (.resume i o)).current = s.current := by
  cases hi : s.tasks[i]? with
  | none => rw [step_resume_none s i o hi]
  | some t =>
    rw [step_resume s i o t hi]
    have he := resume_effect s t o
    generalize resumeTask s t o = r at he
    cases he with
    | same _ _ _ _ h _ => exact h
    | entry _ _ _ h => exact h
    | start => rfl

/-- Tasks and clients belong to factories that were made. -/
theorem belongs (acts : List Action) (s : Ext)
    (ht : ∀ t ∈ s.tasks, t.factory ≤ s.current) (hc : ∀ c ∈ s.clients, c.factory ≤ s.current) :
    (∀ t ∈ (s.run acts).tasks, t.factory ≤ (s.run acts).current) ∧
    (∀ c ∈ (s.run acts).clients, c.factory ≤ (s.run acts).current) := by
  induction acts generalizing s with
  | nil => exact ⟨ht, hc⟩
  | cons a acts ih =>
    refine ih (s.step a) ?_ ?_
    · cases a with
      | event f m =>
        intro t h
        simp only [Ext.step, List.mem_append, List.mem_singleton] at h
        rcases h with h | rfl
        · exact ht t h
        · exact Nat.le_refl _
      | reload => intro t h; exact Nat.le_succ_of_le (ht t h)
      | resume i o =>
        intro t h
        rw [current_of_resume]
        cases hi : s.tasks[i]? with
        | none => rw [step_resume_none s i o hi] at h; exact ht t h
        | some t0 =>
          rw [step_resume s i o t0 hi] at h
          have he := resume_effect s t0 o
          generalize resumeTask s t0 o = r at he h
          have hmem : t0 ∈ s.tasks := List.mem_of_getElem? hi
          cases he with
          | same _ _ h1 h2 h3 h4 =>
            simp only [h1] at h
            rcases List.mem_or_eq_of_mem_set h with h | rfl
            · exact ht t h
            · exact ht t0 hmem
          | entry _ h1 h2 h3 h4 =>
            simp only [h1] at h
            rcases List.mem_or_eq_of_mem_set h with h | rfl
            · exact ht t h
            · exact ht t0 hmem
          | start =>
            rcases List.mem_or_eq_of_mem_set h with h | rfl
            · exact ht t h
            · exact ht t0 hmem
    · cases a with
      | event f m => intro c h; exact hc c h
      | reload =>
        intro c h
        simp only [Ext.step, List.mem_map] at h
        obtain ⟨c', h', rfl⟩ := h
        have := hc c' h'
        split <;> exact Nat.le_succ_of_le this
      | resume i o =>
        intro c h
        rw [current_of_resume]
        cases hi : s.tasks[i]? with
        | none => rw [step_resume_none s i o hi] at h; exact hc c h
        | some t0 =>
          rw [step_resume s i o t0 hi] at h
          have he := resume_effect s t0 o
          generalize resumeTask s t0 o = r at he h
          have hmem : t0 ∈ s.tasks := List.mem_of_getElem? hi
          cases he with
          | same _ _ h1 h2 h3 h4 => simp only [h2] at h; exact hc c h
          | entry _ h1 h2 h3 h4 => simp only [h2] at h; exact hc c h
          | start =>
            simp only [List.mem_append, List.mem_singleton] at h
            rcases h with h | rfl
            · exact hc c h
            · exact ht t0 hmem

theorem current_run (acts : List Action) (s : Ext) (h : .reload ∉ acts) : (s.run acts).current = s.current := by
  induction acts generalizing s with
  | nil => rfl
  | cons a acts ih =>
    simp only [List.mem_cons, not_or] at h
    have e := ih (s.step a) h.2
    rw [show s.run (a :: acts) = (s.step a).run acts from rfl, e]
    cases a with
    | event f m => rfl
    | reload => exact absurd rfl h.1
    | resume i o => exact current_of_resume s i o

/-- C46: for every sequence of editor events and every order in which the promises of the pending calls
settle, and whether they resolve or reject, each folder gets at most one client. -/
theorem one_client_per_folder (acts : List Action) (h : .reload ∉ acts) (folder : Folder) :
    (clientsOf (Ext.new.run acts) folder).length ≤ 1 := by
  have hi := run_inv acts _ inv_new
  have hb := belongs acts Ext.new (by simp [Ext.new]) (by simp [Ext.new])
  have hc : (Ext.new.run acts).current = 0 := current_run acts _ h
  have h1 := hi.one 0 folder
  unfold weight at h1
  have : (clientsOf (Ext.new.run acts) folder).length = (Ext.new.run acts).clients.countP (Client.isOf 0 folder) := by
    rw [clientsOf, ← List.countP_eq_length_filter]
    apply List.countP_congr
    intro c hcm
    have := hb.2 c hcm
    rw [hc] at this
    simp [Client.isOf, Nat.le_zero.1 this]
  omega

/-- Across reloads each activation starts at most one client per folder. -/
theorem one_client_per_activation (acts : List Action) (factory : Nat) (folder : Folder) :
    ((Ext.new.run acts).clients.filter fun c => c.factory = factory && c.folder = folder).length ≤ 1 := by
  have h1 := (run_inv acts _ inv_new).one factory folder
  unfold weight at h1
  have e : ((Ext.new.run acts).clients.filter fun c => c.factory = factory && c.folder = folder).length
      = (Ext.new.run acts).clients.countP (Client.isOf factory folder) := by
    rw [← List.countP_eq_length_filter]
    apply List.countP_congr
    intro c _
    simp [Client.isOf]
  omega

/-- Two overlapping events of one folder, and one of another: two clients. -/
example :
    let s := Ext.new.run [.event 1 true, .event 1 true, .event 2 true, .resume 1 .yes, .resume 0 .yes, .resume 1 .yes,
      .resume 0 .yes, .resume 2 .yes, .resume 1 .yes, .resume 2 .yes, .resume 1 .yes, .resume 2 .yes]
    s.clients = [⟨0, 1, true⟩, ⟨0, 2, true⟩] := by decide

/-! Reloading. -/

/-- Every call has finished. -/
def Idle (s : Ext) : Prop := ∀ t ∈ s.tasks, t.pc = .done

/-- The reloads of the run happen when every call has finished. -/
def CalmReloads (s : Ext) : List Action → Prop
  | [] => True
  | a :: acts => (a = .reload → Idle s) ∧ CalmReloads (s.step a) acts

/-- Only the current factory has pending calls and running clients. -/
structure Calm (s : Ext) : Prop where
  tasks : ∀ t ∈ s.tasks, t.pc = .done ∨ t.factory = s.current
  clients : ∀ c ∈ s.clients, c.running = true → c.factory = s.current

theorem step_calm (s : Ext) (a : Action) (h : Calm s) (hr : a = .reload → Idle s) : Calm (s.step a) := by
  cases a with
  | event f m =>
    refine ⟨fun t ht => ?_, h.clients⟩
    simp only [Ext.step, List.mem_append, List.mem_singleton] at ht
    rcases ht with ht | rfl
    · exact h.tasks t ht
    · exact .inr rfl
  | reload =>
    refine ⟨fun t ht => .inl (hr rfl t ht), ?_⟩
    intro c hc hrun
    simp only [Ext.step, List.mem_map] at hc
    obtain ⟨c', hc', rfl⟩ := hc
    by_cases hf : c'.factory = s.current
    · rw [if_pos hf] at hrun; simp at hrun
    · rw [if_neg hf] at hrun; exact absurd (h.clients c' hc' hrun) hf
  | resume i o =>
    have hcur := current_of_resume s i o
    cases hi : s.tasks[i]? with
    | none =>
      have : s.step (.resume i o) = s := by simp [Ext.step, hi]
      rw [this]; exact h
    | some t0 =>
      have hmem : t0 ∈ s.tasks := List.mem_of_getElem? hi
      have he := resume_effect s t0 o
      have hdone : t0.pc = .done → (resumeTask s t0 o).2 = .done := by
        intro hd; simp [resumeTask, hd]
      have heq : s.step (.resume i o) = { (resumeTask s t0 o).1 with
          tasks := (resumeTask s t0 o).1.tasks.set i { t0 with pc := (resumeTask s t0 o).2 } } := by
        simp [Ext.step, hi]
      rw [heq] at hcur ⊢
      generalize resumeTask s t0 o = r at he hdone hcur
      obtain ⟨s', pc⟩ := r
      simp only at hdone hcur
      have htasks : s'.tasks = s.tasks := by cases he <;> first | assumption | rfl
      refine ⟨fun t ht => ?_, ?_⟩
      · simp only [htasks] at ht
        simp only [hcur]
        rcases List.mem_or_eq_of_mem_set ht with ht | rfl
        · exact h.tasks t ht
        · rcases h.tasks t0 hmem with hd | hf
          · exact .inl (hdone hd)
          · exact .inr hf
      · intro c hc hrun
        simp only [hcur]
        simp only at hc
        cases he with
        | same _ _ h1 h2 h3 h4 => rw [h2] at hc; exact h.clients c hc hrun
        | entry _ h1 h2 h3 h4 => rw [h2] at hc; exact h.clients c hc hrun
        | start hp =>
          simp only [List.mem_append, List.mem_singleton] at hc
          rcases hc with hc | rfl
          · exact h.clients c hc hrun
          · rcases h.tasks t0 hmem with hd | hf
            · rw [hp] at hd; cases hd
            · exact hf

theorem run_calm (acts : List Action) (s : Ext) (h : Calm s) (hr : CalmReloads s acts) : Calm (s.run acts) := by
  induction acts generalizing s with
  | nil => exact h
  | cons a acts ih => exact ih _ (step_calm s a h hr.1) hr.2

/-- C62, the part that holds: if every reload waits for the pending calls, at most one client runs per
folder, also after reloads.  Missing: reloads while a call is pending, see `reload_leaves_two_clients`. -/
theorem one_running_client_partial (acts : List Action) (hr : CalmReloads Ext.new acts) (folder : Folder) :
    (runningOf (Ext.new.run acts) folder).length ≤ 1 := by
  have hi := run_inv acts _ inv_new
  have hcalm := run_calm acts _ (⟨by simp [Ext.new], by simp [Ext.new]⟩ : Calm Ext.new) hr
  have h1 := hi.one (Ext.new.run acts).current folder
  unfold weight at h1
  have : (runningOf (Ext.new.run acts) folder).length
      ≤ (Ext.new.run acts).clients.countP (Client.isOf (Ext.new.run acts).current folder) := by
    rw [runningOf, ← List.countP_eq_length_filter]
    apply List.countP_mono_left
    intro c hc hp
    simp only [Bool.and_eq_true, decide_eq_true_eq] at hp
    simp [Client.isOf, hp.1, hcalm.clients c hc hp.2]
  omega

instance (s : Ext) : Decidable (Idle s) := inferInstanceAs (Decidable (∀ t ∈ s.tasks, t.pc = .done))

def calmReloadsDecidable : (acts : List Action) → (s : Ext) → Decidable (CalmReloads s acts)
  | [], _ => isTrue trivial
  | a :: acts, s =>
    have : Decidable (CalmReloads (s.step a) acts) := calmReloadsDecidable acts (s.step a)
    inferInstanceAs (Decidable ((a = .reload → Idle s) ∧ CalmReloads (s.step a) acts))

instance (s : Ext) (acts : List Action) : Decidable (CalmReloads s acts) := calmReloadsDecidable acts s

example :
    let acts : List Action := [.event 1 true, .resume 0 .yes, .resume 0 .yes, .resume 0 .yes, .resume 0 .yes, .resume 0 .yes,
      .reload, .event 1 true, .resume 1 .yes, .resume 1 .yes, .resume 1 .yes, .resume 1 .yes]
    CalmReloads Ext.new acts ∧ (Ext.new.run acts).clients = [⟨0, 1, false⟩, ⟨1, 1, true⟩] := by decide

/-- A reload while a call waits for the metadata: the old call starts a client that nobody stops, so two
clients run for one folder; a further reload does not help. -/
theorem reload_leaves_two_clients :
    let acts : List Action := [.event 1 true, .resume 0 .yes, .resume 0 .yes, .reload, .event 1 true, .resume 1 .yes,
      .resume 1 .yes, .resume 1 .yes, .resume 1 .yes, .resume 0 .yes, .resume 0 .yes]
    (runningOf (Ext.new.run acts) 1).length = 2 ∧
    ⟨0, 1, true⟩ ∈ (Ext.new.run (acts ++ [.reload])).clients := by decide

/-! A failed start. -/

/-- The folder has an entry, no client in the current factory, and no pending call that can start one. -/
structure Failed (s : Ext) (folder : Folder) : Prop where
  entry : (s.factories s.current).workspaces folder = true
  weight : weight s s.current folder = 0

theorem step_failed (s : Ext) (a : Action) (folder : Folder) (ha : a ≠ .reload) (h : Failed s folder) :
    Failed (s.step a) folder := by
  cases a with
  | reload => exact absurd rfl ha
  | event f m =>
    refine ⟨h.entry, ?_⟩
    have := h.weight
    simpa [Editor.weight, Ext.step, List.countP_append, List.countP_cons, Task.starts] using this
  | resume i o =>
    have hcur := current_of_resume s i o
    cases hi : s.tasks[i]? with
    | none =>
      have : s.step (.resume i o) = s := by simp [Ext.step, hi]
      rw [this]; exact h
    | some t =>
      have he := resume_effect s t o
      have heq : s.step (.resume i o) = { (resumeTask s t o).1 with
          tasks := (resumeTask s t o).1.tasks.set i { t with pc := (resumeTask s t o).2 } } := by
        simp [Ext.step, hi]
      rw [heq] at hcur ⊢
      generalize resumeTask s t o = r at he hcur
      obtain ⟨s', pc⟩ := r
      simp only at hcur ⊢
      have hz := h.weight
      unfold Editor.weight at hz
      have hz1 : s.tasks.countP (Task.starts s.current folder) = 0 := by omega
      have hz2 : s.clients.countP (Client.isOf s.current folder) = 0 := by omega
      have hnot : Task.starts s.current folder t = false := by
        have := List.countP_eq_zero.1 hz1 t (List.mem_of_getElem? hi)
        simpa using this
      have hc := countP_set (Task.starts s.current folder) s.tasks i t { t with pc := pc } hi
      rw [hnot, hz1] at hc
      simp only [Bool.false_eq_true, if_false, Nat.add_zero, Nat.zero_add] at hc
      cases he with
      | same _ _ h1 h2 h3 h4 h5 =>
        refine ⟨by simp only [hcur]; rw [h4]; exact h.entry, ?_⟩
        simp only [Editor.weight, hcur, h1, h2, hz2, Nat.add_zero]
        rw [hc, if_neg]
        rw [starts_pc]
        simp only [Bool.and_eq_true, decide_eq_true_eq]
        rintro ⟨hx, hpc⟩
        have : Task.starts s.current folder t = true := by
          simp only [Task.starts, Bool.and_eq_true, decide_eq_true_eq]
          exact ⟨hx, h5 hpc⟩
        rw [hnot] at this; cases this
      | entry _ h1 h2 h3 h4 h5 h6 h7 =>
        refine ⟨by simp only [hcur]; rw [h5, h.entry]; rfl, ?_⟩
        simp only [Editor.weight, hcur, h1, h2, hz2, Nat.add_zero]
        rw [hc, if_neg]
        rw [starts_pc]
        simp only [Bool.and_eq_true, decide_eq_true_eq]
        rintro ⟨⟨hx, hy⟩, _⟩
        rw [hx, hy, h.entry] at h4; cases h4
      | start hp =>
        have hne : ¬ (t.factory = s.current ∧ t.folder = folder) := by
          intro hx
          have : Task.starts s.current folder t = true := by simp [Task.starts, hx.1, hx.2, hp]
          rw [hnot] at this; cases this
        refine ⟨h.entry, ?_⟩
        simp only [Editor.weight, List.countP_append, hz2, List.countP_cons, List.countP_nil, Nat.zero_add]
        rw [hc, starts_pc]
        simp only [reduceCtorEq, or_self, decide_false, Bool.and_false, Bool.false_eq_true, if_false, Nat.zero_add]
        rw [if_neg]
        simpa [Client.isOf] using hne

/-- C63: once a start of a folder has failed, no later event of the activation starts a client for it,
whatever the promises do. -/
theorem failed_start_is_final (s : Ext) (folder : Folder) (h : Failed s folder) (acts : List Action)
    (hr : .reload ∉ acts) : ((s.run acts).clients.filter fun c => c.factory = s.current && c.folder = folder) = [] := by
  have hf : Failed (s.run acts) folder := by
    induction acts generalizing s with
    | nil => exact h
    | cons a acts ih =>
      simp only [List.mem_cons, not_or] at hr
      exact ih (s.step a) (step_failed s a folder (Ne.symm hr.1) h) hr.2
  have hw := hf.weight
  rw [current_run acts s hr] at hw
  unfold weight at hw
  rw [List.filter_eq_nil_iff]
  intro c hc
  have := List.countP_eq_zero.1 (by omega : (s.run acts).clients.countP (Client.isOf s.current folder) = 0) c hc
  simpa [Client.isOf] using this

/-- Such a state is reached when `dove metadata` fails once in `start`, or rejects before. -/
theorem failed_start_reachable :
    (Ext.new.run [.event 1 true, .resume 0 .yes, .resume 0 .yes, .resume 0 .yes, .resume 0 .no]).clients = [] ∧
    Failed (Ext.new.run [.event 1 true, .resume 0 .yes, .resume 0 .yes, .resume 0 .yes, .resume 0 .no]) 1 ∧
    Failed (Ext.new.run [.event 1 true, .resume 0 .yes, .resume 0 .yes, .resume 0 .reject]) 1 :=
  ⟨by decide, ⟨by decide, by decide⟩, ⟨by decide, by decide⟩⟩

/-- C63, the part that holds: a start that failed before the folder got an entry, because the manifest was
missing or the binaries could not be fetched, is repeated by the next event.  Missing: starts that fail
later, see `failed_start_is_final`. -/
theorem start_is_repeated_partial (s : Ext) (folder : Folder)
    (h : (s.factories s.current).workspaces folder = false) :
    ⟨s.current, folder, true⟩ ∈ (s.run [.event folder true, .resume s.tasks.length .yes, .resume s.tasks.length .yes,
      .resume s.tasks.length .yes, .resume s.tasks.length .yes, .resume s.tasks.length .yes]).clients := by
  cases he : (s.factories s.current).executables <;>
    simp [Ext.run, Ext.step, resumeTask, lookup, Ext.setFactory, h, he]

example : ((Ext.new.run [.event 1 true, .resume 0 .no, .event 1 true, .resume 1 .yes, .resume 1 .reject]).factories 0).workspaces 1
    = false := by decide

end Verif.Editor
