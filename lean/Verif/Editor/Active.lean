import Verif.Editor.Ws

set_option autoImplicit false

/-!
C91: the active workspace is that of the document the user went to last (the comment in ws.ts:17-20).
-/

namespace Verif.Editor

/-- A call that has passed the look-up has made an entry for its folder. -/
structure Known (s : Ext) : Prop where
  tasks : ∀ t ∈ s.tasks, t.pc = .metadata ∨ t.pc = .startMetadata ∨ t.pc = .startReturn →
    (s.factories t.factory).workspaces t.folder = true
  active : ∀ g f, (s.factories g).activeWorkspace = some f → (s.factories g).workspaces f = true

/-- Entries are not removed, and the active workspace changes only to that of the task, which has an entry. -/
theorem lookup_known (s : Ext) (t : Task) :
    (∀ g f, (s.factories g).workspaces f = true → ((lookup s t).1.factories g).workspaces f = true) ∧
    (∀ g f, ((lookup s t).1.factories g).activeWorkspace = some f → (s.factories g).activeWorkspace = some f ∨
      g = t.factory ∧ f = t.folder ∧ ((lookup s t).1.factories g).workspaces f = true) ∧
    ((lookup s t).2 ≠ .done → ((lookup s t).1.factories t.factory).workspaces t.folder = true) ∧
    (lookup s t).1.tasks = s.tasks := by
  unfold lookup
  simp only
  split
  · next h =>
    refine ⟨fun g f hf => ?_, fun g f hf => ?_, fun _ => ?_, rfl⟩
    · simp only [Ext.setFactory]
      split
      · next hg =>
        subst hg
        simp only
        split
        · rfl
        · exact hf
      · exact hf
    · simp only [Ext.setFactory] at hf
      split at hf
      · next hg => subst hg; exact Or.inl hf
      · exact Or.inl hf
    · simp [Ext.setFactory]
  · split
    · next h2 =>
      refine ⟨fun g f hf => ?_, fun g f hf => ?_, fun h => absurd rfl h, rfl⟩
      · simp only [Ext.setFactory]
        split
        · next hg => subst hg; exact hf
        · exact hf
      · simp only [Ext.setFactory] at hf ⊢
        split at hf
        · next hg =>
          subst hg
          simp only [Option.some.injEq] at hf
          subst hf
          exact Or.inr ⟨rfl, rfl, by simpa using h2⟩
        · exact Or.inl hf
    · exact ⟨fun _ _ h => h, fun _ _ h => Or.inl h, fun h => absurd rfl h, rfl⟩

theorem resume_known (s : Ext) (t : Task) (o : Outcome)
    (ht : t.pc = .metadata ∨ t.pc = .startMetadata ∨ t.pc = .startReturn →
      (s.factories t.factory).workspaces t.folder = true) :
    (∀ g f, (s.factories g).workspaces f = true → ((resumeTask s t o).1.factories g).workspaces f = true) ∧
    (∀ g f, ((resumeTask s t o).1.factories g).activeWorkspace = some f → (s.factories g).activeWorkspace = some f ∨
      ((resumeTask s t o).1.factories g).workspaces f = true) ∧
    ((resumeTask s t o).2 = .metadata ∨ (resumeTask s t o).2 = .startMetadata ∨ (resumeTask s t o).2 = .startReturn →
      ((resumeTask s t o).1.factories t.factory).workspaces t.folder = true) ∧
    (resumeTask s t o).1.tasks = s.tasks := by
  have same : ∀ pc : Pc, (pc = .metadata ∨ pc = .startMetadata ∨ pc = .startReturn →
      (s.factories t.factory).workspaces t.folder = true) →
      (∀ g f, (s.factories g).workspaces f = true → ((s, pc).1.factories g).workspaces f = true) ∧
      (∀ g f, ((s, pc).1.factories g).activeWorkspace = some f → (s.factories g).activeWorkspace = some f ∨
        ((s, pc).1.factories g).workspaces f = true) ∧
      ((s, pc).2 = .metadata ∨ (s, pc).2 = .startMetadata ∨ (s, pc).2 = .startReturn →
        ((s, pc).1.factories t.factory).workspaces t.folder = true) ∧ (s, pc).1.tasks = s.tasks :=
    fun pc h => ⟨fun _ _ h => h, fun _ _ h => Or.inl h, h, rfl⟩
  cases hp : t.pc with
  | stat =>
    by_cases ho : o = .yes
    · by_cases he : (s.factories t.factory).executables = true
      · simp only [resumeTask, hp, ho, he, if_true]
        obtain ⟨h1, h2, h3, h4⟩ := lookup_known s t
        refine ⟨h1, fun g f h => ?_, fun h => h3 ?_, h4⟩
        · rcases h2 g f h with h | ⟨-, -, h⟩
          · exact Or.inl h
          · exact Or.inr h
        · intro e; rw [e] at h; simp at h
      · rw [show resumeTask s t o = (s, .bootstrap) by simp [resumeTask, hp, ho, he]]
        exact same .bootstrap (by simp)
    · rw [show resumeTask s t o = (s, .done) by simp [resumeTask, hp, ho]]
      exact same .done (by simp)
  | bootstrap =>
    by_cases ho : o = .reject
    · rw [show resumeTask s t o = (s, .done) by simp [resumeTask, hp, ho]]
      exact same .done (by simp)
    · simp only [resumeTask, hp, if_neg ho]
      have hw : ∀ g f, ((s.setFactory t.factory { s.factories t.factory with executables := true }).factories g).workspaces f =
          (s.factories g).workspaces f := by
        intro g f; simp only [Ext.setFactory]; split
        · next h => subst h; rfl
        · rfl
      have ha : ∀ g, ((s.setFactory t.factory { s.factories t.factory with executables := true }).factories g).activeWorkspace =
          (s.factories g).activeWorkspace := by
        intro g; simp only [Ext.setFactory]; split
        · next h => subst h; rfl
        · rfl
      obtain ⟨h1, h2, h3, h4⟩ := lookup_known (s.setFactory t.factory { s.factories t.factory with executables := true }) t
      refine ⟨fun g f h => h1 g f (by rw [hw]; exact h), fun g f h => ?_, fun h => h3 ?_, h4⟩
      · rcases h2 g f h with h | ⟨-, -, h⟩
        · rw [ha] at h; exact Or.inl h
        · exact Or.inr h
      · intro e; rw [e] at h; simp at h
  | metadata =>
    by_cases ho : o = .reject
    · rw [show resumeTask s t o = (s, .done) by simp [resumeTask, hp, ho]]
      exact same .done (by simp)
    · rw [show resumeTask s t o = (s, .startMetadata) by simp [resumeTask, hp, ho]]
      exact same .startMetadata fun _ => ht (Or.inl hp)
  | startMetadata =>
    have hw := ht (Or.inr (Or.inl hp))
    cases o with
    | yes => simp only [resumeTask, hp]; exact ⟨fun _ _ h => h, fun _ _ h => Or.inl h, fun _ => hw, trivial⟩
    | no => rw [show resumeTask s t .no = (s, .startReturn) by simp [resumeTask, hp]]; exact same .startReturn fun _ => hw
    | reject => rw [show resumeTask s t .reject = (s, .done) by simp [resumeTask, hp]]; exact same .done (by simp)
  | startReturn =>
    have hw := ht (Or.inr (Or.inr hp))
    simp only [resumeTask, hp]
    refine ⟨fun g f h => ?_, fun g f h => ?_, by simp, rfl⟩
    · simp only [Ext.setFactory]; split
      · next hg => subst hg; exact h
      · exact h
    · simp only [Ext.setFactory] at h ⊢
      split at h
      · next hg =>
        subst hg
        simp only [Option.some.injEq] at h
        subst h
        exact Or.inr (by simpa using hw)
      · exact Or.inl h
  | done =>
    rw [show resumeTask s t o = (s, .done) by simp [resumeTask, hp]]
    exact same .done (by simp)

theorem step_known (s : Ext) (a : Action) (h : Known s) : Known (s.step a) := by
  cases a with
  | event f m =>
    refine ⟨fun t ht hp => ?_, h.active⟩
    simp only [Ext.step, List.mem_append, List.mem_singleton] at ht
    rcases ht with ht | rfl
    · exact h.tasks t ht hp
    · simp at hp
  | reload => exact ⟨h.tasks, h.active⟩
  | resume i o =>
    cases hi : s.tasks[i]? with
    | none => rw [step_resume_none s i o hi]; exact h
    | some t =>
      rw [step_resume s i o t hi]
      obtain ⟨h1, h2, h3, h4⟩ := resume_known s t o (h.tasks t (List.mem_of_getElem? hi))
      refine ⟨fun t' ht hp => ?_, fun g f hf => ?_⟩
      · simp only [h4] at ht
        rcases List.mem_or_eq_of_mem_set ht with ht | rfl
        · exact h1 _ _ (h.tasks t' ht hp)
        · exact h3 hp
      · rcases h2 g f hf with hf | hf
        · exact h1 _ _ (h.active g f hf)
        · exact hf

/-- C91, in every run: the active workspace is one the factory has, also while others are being started. -/
theorem active_is_known (acts : List Action) (factory : Nat) (folder : Folder)
    (h : ((Ext.new.run acts).factories factory).activeWorkspace = some folder) :
    ((Ext.new.run acts).factories factory).workspaces folder = true := by
  have : ∀ (acts : List Action) (s : Ext), Known s → Known (s.run acts) := by
    intro acts
    induction acts with
    | nil => exact fun _ h => h
    | cons a acts ih => exact fun s h => ih _ (step_known s a h)
  exact (this acts Ext.new ⟨by simp [Ext.new], by simp [Ext.new, Factory.new]⟩).active factory folder h

/-- C91, the part that holds: when the user goes to a Move document, or to a document of a folder that has a workspace,
and the calls of `initClientWorkspace` go well without anything else in between, the workspace of that folder is active.
Missing: events in between, see `earlier_document_active`. -/
theorem last_document_active_partial (s : Ext) (folder : Folder) (isMove : Bool)
    (h : isMove = true ∨ (s.factories s.current).workspaces folder = true) :
    let s' := s.run (.event folder isMove :: List.replicate 5 (.resume s.tasks.length .yes))
    s'.current = s.current ∧ (s'.factories s.current).activeWorkspace = some folder := by
  simp only [List.replicate, Ext.run, List.foldl_cons, List.foldl_nil]
  have e : ∀ (u : Ext) (t : Task), u.tasks = s.tasks ++ [t] →
      u.step (.resume s.tasks.length .yes) = { (resumeTask u t .yes).1 with
        tasks := (resumeTask u t .yes).1.tasks.set s.tasks.length { t with pc := (resumeTask u t .yes).2 } } := by
    intro u t hu
    exact step_resume u _ _ t (by rw [hu]; simp)
  have hset : ∀ t t' : Task, (s.tasks ++ [t]).set s.tasks.length t' = s.tasks ++ [t'] := by
    intro t t'; simp
  cases he : (s.factories s.current).executables <;> cases hw : (s.factories s.current).workspaces folder <;>
    cases isMove <;> simp_all [Ext.step, resumeTask, lookup, Ext.setFactory]

/-- A second document of a folder that has a workspace, which is not a Move file. -/
example : let s := Ext.new.run ([.event 1 true] ++ List.replicate 5 (.resume 0 .yes) ++
      [.event 2 true] ++ List.replicate 5 (.resume 1 .yes))
    (s.factories 0).activeWorkspace = some 2 ∧ (s.factories s.current).workspaces 1 = true ∧
    ((s.run (.event 1 false :: List.replicate 5 (.resume s.tasks.length .yes))).factories 0).activeWorkspace = some 1 := by
  decide

/-- The full property fails: the user goes to folder 1, which takes a while to start, and then to folder 2, and stays
there; when all calls have finished, folder 1 is active. -/
theorem earlier_document_active :
    let acts : List Action := [.event 1 true, .event 2 true, .resume 0 .yes, .resume 0 .yes, .resume 1 .yes, .resume 1 .yes,
      .resume 1 .yes, .resume 1 .yes, .resume 0 .yes, .resume 0 .yes, .resume 0 .yes]
    (∀ t ∈ (Ext.new.run acts).tasks, t.pc = .done) ∧
    ((Ext.new.run acts).factories (Ext.new.run acts).current).activeWorkspace = some 1 := by decide

end Verif.Editor
