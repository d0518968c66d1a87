import Verif.Server.Threads

set_option autoImplicit false

/-!
C88, C89, C118: what the answers of the workers rest on, that all work given to the pool is done, that a change
interrupts what is outdated, and that a server that is stopped comes to its end.
-/

namespace Verif.Server.Threads

variable {cost : Nat → Query → Nat}

namespace Spec

/-- The worker is computing a query. -/
def Computes (s : State) (i : Nat) (f : Nat) (q : Query) : Prop :=
  ∃ files left, s.workers[i]? = some (.job (f :: files) (.busy q left))

/-- The step changes the database. -/
def Writes (s : State) (l : Label) : Prop := l = .main ∧ s.main.head? = some .write

/-- How often something happens in a run. -/
def tally (cost : Nat → Query → Nat) (p : State → Label → State → Bool) : State → List Label → Nat
  | _, [] => 0
  | s, l :: ls =>
    match step cost s l with
    | none => 0
    | some t => (if p s l t then 1 else 0) + tally cost p t ls

/-- The main thread gives work to the pool. -/
def gives (s : State) (l : Label) (_ : State) : Bool :=
  l == .main && (match s.main.head? with | some (.spawn _) => true | _ => false)

/-- A worker has become free. -/
def frees (s : State) (l : Label) (t : State) : Bool :=
  match l with
  | .worker i _ => t.workers[i]? == some .idle && s.workers[i]? != some .idle
  | _ => false

end Spec

open Spec

/-! ### Steps -/

theorem steps_det {s t u : State} {ls : List Label} (h1 : Steps cost s ls t) (h2 : Steps cost s ls u) : t = u := by
  induction h1 with
  | nil => cases h2; rfl
  | cons h _ ih =>
    cases h2 with
    | cons h' hs' =>
      rw [h] at h'
      cases h'
      exact ih hs'

theorem steps_append {s t u : State} {a b : List Label} (h1 : Steps cost s a t) (h2 : Steps cost t b u) :
    Steps cost s (a ++ b) u := by
  induction h1 with
  | nil => exact h2
  | cons h _ ih => exact .cons h (ih h2)

theorem steps_split {s u : State} {a b : List Label} (h : Steps cost s (a ++ b) u) :
    ∃ t, Steps cost s a t ∧ Steps cost t b u := by
  induction a generalizing s with
  | nil => exact ⟨s, .nil s, h⟩
  | cons l a ih =>
    cases h with
    | cons h hs =>
      obtain ⟨t, h1, h2⟩ := ih hs
      exact ⟨t, .cons h h1, h2⟩

/-- Something that holds at first and is kept by every step. -/
theorem steps_keep {P : State → Prop} (hstep : ∀ s t l, P s → step cost s l = some t → P t) {s t : State} {ls : List Label}
    (h : Steps cost s ls t) : P s → P t := by
  induction h with
  | nil => exact id
  | cons h _ ih => exact fun hp => ih (hstep _ _ _ hp h)

theorem worker_step {s t : State} {i : Nat} {c : Choice} (h : step cost s (.worker i c) = some t) :
    ∃ w w' u, s.workers[i]? = some w ∧ workerStep cost s w c = some (w', u) ∧ t = { u with workers := s.workers.set i w' } := by
  simp only [step] at h
  cases hw : s.workers[i]? with
  | none => rw [hw] at h; cases h
  | some w =>
    rw [hw] at h
    simp only at h
    cases hx : workerStep cost s w c with
    | none => rw [hx] at h; cases h
    | some r =>
      obtain ⟨w', u⟩ := r
      rw [hx] at h
      simp only [Option.some.injEq] at h
      subst h
      exact ⟨w, w', u, rfl, hx, by rw [(workerStep_state hx).2.2.2.2.2.1]⟩

/-! ### Queries -/

/-- What a step of a worker has to do with queries. -/
theorem workerStep_memo {s t : State} {w w' : Worker} {c : Choice} (h : workerStep cost s w c = some (w', t)) :
    (t.memo = s.memo ∧ (w'.claim = none ∨ w'.claim = w.claim ∨
      ∃ f files q, w = .job (f :: files) (.ask q) ∧ w'.claim = some (f, q) ∧ (f, q) ∉ s.memo ∧ s.claimed (f, q) = false)) ∨
    (∃ f files q, c = .go ∧ w = .job (f :: files) (.busy q 0) ∧ w' = after f files q ∧ t.memo = (f, q) :: s.memo) := by
  have hafter : ∀ f files q, (after f files q).claim = none := by intro f files q; cases q <;> cases files <;> rfl
  have hline : ∀ files, (Worker.job files .line).claim = none := by intro files; cases files <;> rfl
  cases c with
  | go =>
    cases w with
    | idle =>
      unfold workerStep at h
      cases hq : s.queue with
      | nil => simp [hq] at h
      | cons j rest =>
        simp only [hq, Option.some.injEq, Prod.mk.injEq] at h
        obtain ⟨rfl, rfl⟩ := h
        refine .inl ⟨rfl, .inl ?_⟩
        cases j with
        | diagnostics files => exact hline files
        | load n => rfl
    | sending =>
      simp only [workerStep, Option.some.injEq, Prod.mk.injEq] at h
      obtain ⟨rfl, rfl⟩ := h
      exact .inl ⟨rfl, .inl rfl⟩
    | loading n =>
      cases n <;> simp only [workerStep, Option.some.injEq, Prod.mk.injEq] at h <;> obtain ⟨rfl, rfl⟩ := h <;>
        exact .inl ⟨rfl, .inl rfl⟩
    | job files ph =>
      cases files with
      | nil =>
        simp only [workerStep, Option.some.injEq, Prod.mk.injEq] at h
        obtain ⟨rfl, rfl⟩ := h
        exact .inl ⟨rfl, .inl rfl⟩
      | cons f files =>
        cases ph with
        | line =>
          simp only [workerStep] at h
          split at h
          · cases h
          · cases h
            exact .inl ⟨rfl, .inl rfl⟩
        | locked => cases h; exact .inl ⟨rfl, .inl rfl⟩
        | ask q =>
          simp only [workerStep] at h
          split at h
          · cases h; exact .inl ⟨rfl, .inl (hline _)⟩
          · split at h
            · cases h; exact .inl ⟨rfl, .inl (hafter ..)⟩
            · split at h
              · cases h; exact .inl ⟨rfl, .inl rfl⟩
              · rename_i h1 h2
                cases h
                exact .inl ⟨rfl, .inr (.inr ⟨f, files, q, rfl, rfl, h1, by simpa using h2⟩)⟩
        | blocked q =>
          simp only [workerStep] at h
          split at h
          · cases h
          · split at h
            · cases h; exact .inl ⟨rfl, .inl (hafter ..)⟩
            · cases h; exact .inl ⟨rfl, .inl (hline _)⟩
        | busy q n =>
          cases n with
          | zero => cases h; exact .inr ⟨f, files, q, rfl, rfl, rfl, rfl⟩
          | succ n => cases h; exact .inl ⟨rfl, .inr (.inl rfl)⟩
  | cancelled =>
    unfold workerStep at h
    dsimp only at h
    split at h
    · split at h
      · cases h; exact .inl ⟨rfl, .inl (hline _)⟩
      · cases h
    · cases h
  | panic =>
    unfold workerStep at h
    dsimp only at h
    split at h <;> cases h <;> exact .inl ⟨rfl, .inl rfl⟩

theorem main_memo {s t : State} (h : mainStep s = some t) :
    t.workers = s.workers ∧ (t.memo = s.memo ∧ s.main.head? ≠ some .write ∨
      t.memo = [] ∧ s.main.head? = some .write ∧ s.snapshots = false) := by
  unfold mainStep at h
  split at h
  · cases h
  · rename_i rest hm
    split at h
    · cases h
    · split at h
      · split at h <;> cases h
        exact ⟨rfl, .inl ⟨rfl, by simp [hm]⟩⟩
      · cases h; exact ⟨rfl, .inl ⟨rfl, by simp [hm]⟩⟩
  · rename_i hm; cases h; exact ⟨rfl, .inl ⟨rfl, by simp [hm]⟩⟩
  · rename_i hm
    split at h <;> cases h
    exact ⟨rfl, .inl ⟨rfl, by simp [hm]⟩⟩
  · rename_i hm; cases h; exact ⟨rfl, .inl ⟨rfl, by simp [hm]⟩⟩
  · rename_i hm; cases h; exact ⟨rfl, .inl ⟨rfl, by simp [hm]⟩⟩
  · rename_i hm
    split at h
    · cases h
    · rename_i hs
      cases h
      exact ⟨rfl, .inr ⟨rfl, by simp [hm], by simpa using hs⟩⟩
  · rename_i hm; cases h; exact ⟨rfl, .inl ⟨rfl, by simp [hm]⟩⟩
  · rename_i hm
    split at h <;> cases h
    exact ⟨rfl, .inl ⟨rfl, by simp [hm]⟩⟩

theorem other_steps {s t : State} {l : Label} (h : step cost s l = some t) (hl : internal l = false) :
    t.workers = s.workers ∧ t.memo = s.memo ∧ t.queue = s.queue := by
  cases l with
  | worker i c => cases hl
  | main => cases hl
  | event e c d n =>
    simp only [step] at h
    split at h <;> cases h
    exact ⟨rfl, rfl, rfl⟩
  | stop =>
    simp only [step] at h
    split at h <;> cases h
    exact ⟨rfl, rfl, rfl⟩

/-- The file for which a worker has got the line index and wants the syntax tree. -/
def Worker.parsing : Worker → Option Nat
  | .job (f :: _) (.ask .parse) | .job (f :: _) (.blocked .parse) | .job (f :: _) (.busy .parse _) => some f
  | _ => none

theorem workerStep_parsing {s t : State} {w w' : Worker} {c : Choice} (h : workerStep cost s w c = some (w', t))
    {f : Nat} (hf : w'.parsing = some f) : w.parsing = some f ∨ (f, .lineIndex) ∈ t.memo := by
  have hline : ∀ files, (Worker.job files .line).parsing = none := by intro files; cases files <;> rfl
  have hafter : ∀ g files q, (after g files q).parsing = some f → q = .lineIndex ∧ g = f := by
    intro g files q h
    cases q with
    | lineIndex => cases h; exact ⟨rfl, rfl⟩
    | parse => unfold after at h; rw [hline] at h; cases h
  cases c with
  | go =>
    cases w with
    | idle =>
      unfold workerStep at h
      cases hq : s.queue with
      | nil => simp [hq] at h
      | cons j rest =>
        simp only [hq, Option.some.injEq, Prod.mk.injEq] at h
        obtain ⟨rfl, rfl⟩ := h
        cases j with
        | diagnostics files => unfold Job.start at hf; rw [hline] at hf; cases hf
        | load n => cases hf
    | sending =>
      simp only [workerStep, Option.some.injEq, Prod.mk.injEq] at h
      obtain ⟨rfl, rfl⟩ := h
      cases hf
    | loading n =>
      cases n <;> simp only [workerStep, Option.some.injEq, Prod.mk.injEq] at h <;> obtain ⟨rfl, rfl⟩ := h <;> cases hf
    | job files ph =>
      cases files with
      | nil =>
        simp only [workerStep, Option.some.injEq, Prod.mk.injEq] at h
        obtain ⟨rfl, rfl⟩ := h
        cases hf
      | cons g files =>
        cases ph with
        | line =>
          simp only [workerStep] at h
          split at h
          · cases h
          · cases h; cases hf
        | locked => cases h; cases hf
        | ask q =>
          simp only [workerStep] at h
          split at h
          · cases h; rw [hline] at hf; cases hf
          · split at h
            · rename_i hm
              cases h
              obtain ⟨rfl, rfl⟩ := hafter _ _ _ hf
              exact .inr hm
            · split at h <;> cases h <;> cases q <;> cases hf <;> exact .inl rfl
        | blocked q =>
          simp only [workerStep] at h
          split at h
          · cases h
          · split at h
            · rename_i hm
              cases h
              obtain ⟨rfl, rfl⟩ := hafter _ _ _ hf
              exact .inr hm
            · cases h; rw [hline] at hf; cases hf
        | busy q n =>
          cases n with
          | zero =>
            cases h
            obtain ⟨rfl, rfl⟩ := hafter _ _ _ hf
            exact .inr (by simp)
          | succ n => cases h; cases q <;> cases hf <;> exact .inl rfl
  | cancelled =>
    unfold workerStep at h
    dsimp only at h
    split at h
    · split at h
      · cases h; rw [hline] at hf; cases hf
      · cases h
    · cases h
  | panic =>
    unfold workerStep at h
    dsimp only at h
    split at h <;> cases h <;> cases hf

/-- What holds of the queries between any two steps. -/
structure Queries (s : State) : Prop where
  once : ∀ (i j : Nat) w w' k, s.workers[i]? = some w → s.workers[j]? = some w' → w.claim = some k → w'.claim = some k → i = j
  new : ∀ (i : Nat) w k, s.workers[i]? = some w → w.claim = some k → k ∉ s.memo
  line : ∀ (i : Nat) w f, s.workers[i]? = some w → w.parsing = some f → (f, .lineIndex) ∈ s.memo

theorem queries_start (n work : Nat) : Queries (start n work) := by
  have h : ∀ (i : Nat) w, (start n work).workers[i]? = some w → w = .idle := by
    intro i w hw
    exact List.eq_of_mem_replicate (List.mem_of_getElem? hw)
  refine ⟨fun i j w w' k h1 _ h3 _ => ?_, fun i w k h1 h2 => ?_, fun i w f h1 h2 => ?_⟩
  · rw [h i w h1] at h3; cases h3
  · rw [h i w h1] at h2; cases h2
  · rw [h i w h1] at h2; cases h2

theorem get_set {α : Type} {l : List α} {i j : Nat} {a b : α} (h : (l.set i a)[j]? = some b) :
    i = j ∧ b = a ∨ i ≠ j ∧ l[j]? = some b := by
  rw [List.getElem?_set] at h
  split at h
  · rename_i hij
    split at h
    · cases h; exact .inl ⟨hij, rfl⟩
    · cases h
  · rename_i hij
    exact .inr ⟨hij, h⟩

theorem queries_step {s t : State} {l : Label} (hq : Queries s) (h : step cost s l = some t) : Queries t := by
  cases l with
  | event e c d n =>
    obtain ⟨h1, h2, _⟩ := other_steps h rfl
    exact ⟨by rw [h1]; exact hq.once, by rw [h1, h2]; exact hq.new, by rw [h1, h2]; exact hq.line⟩
  | stop =>
    obtain ⟨h1, h2, _⟩ := other_steps h rfl
    exact ⟨by rw [h1]; exact hq.once, by rw [h1, h2]; exact hq.new, by rw [h1, h2]; exact hq.line⟩
  | main =>
    obtain ⟨h1, ⟨h2, _⟩ | ⟨h2, _, h3⟩⟩ := main_memo h
    · exact ⟨by rw [h1]; exact hq.once, by rw [h1, h2]; exact hq.new, by rw [h1, h2]; exact hq.line⟩
    · refine ⟨by rw [h1]; exact hq.once, by rw [h2]; intros; simp, ?_⟩
      rw [h1]
      intro i w f hw hf
      exfalso
      unfold State.snapshots at h3
      rw [Bool.or_eq_false_iff] at h3
      have := List.any_eq_false.1 h3.2 w (List.mem_of_getElem? hw)
      cases w with
      | job files ph => simp [Worker.hasSnapshot] at this
      | idle => cases hf
      | sending => cases hf
      | loading n => cases hf
  | worker i c =>
    obtain ⟨w, w', u, hw, hx, rfl⟩ := worker_step h
    have hmemo := workerStep_memo hx
    have hsub : ∀ k, k ∈ s.memo → k ∈ u.memo := by
      rcases hmemo with ⟨e, _⟩ | ⟨f, files, q, _, _, _, e⟩
      · rw [e]; exact fun _ h => h
      · rw [e]; exact fun _ h => List.mem_cons_of_mem _ h
    refine ⟨fun a b x y k ha hb hxk hyk => ?_, fun a x k ha hxk => ?_, fun a x f ha hxf => ?_⟩
    · rcases get_set ha with ⟨rfl, rfl⟩ | ⟨na, ha'⟩ <;> rcases get_set hb with ⟨rfl, rfl⟩ | ⟨nb, hb'⟩
      · rfl
      · rcases hmemo with ⟨_, e | e | ⟨f, files, q, _, e, _, hcl⟩⟩ | ⟨f, files, q, _, _, rfl, _⟩
        · rw [e] at hxk; cases hxk
        · exact hq.once _ _ _ _ k hw hb' (e ▸ hxk) hyk
        · exfalso
          rw [e] at hxk; cases hxk
          unfold State.claimed at hcl
          rw [List.any_eq_false] at hcl
          exact hcl y (List.mem_of_getElem? hb') (by simp [hyk])
        · cases q <;> cases files <;> cases hxk
      · rcases hmemo with ⟨_, e | e | ⟨f, files, q, _, e, _, hcl⟩⟩ | ⟨f, files, q, _, _, rfl, _⟩
        · rw [e] at hyk; cases hyk
        · exact hq.once _ _ _ _ k ha' hw hxk (e ▸ hyk)
        · exfalso
          rw [e] at hyk; cases hyk
          unfold State.claimed at hcl
          rw [List.any_eq_false] at hcl
          exact hcl x (List.mem_of_getElem? ha') (by simp [hxk])
        · cases q <;> cases files <;> cases hyk
      · exact hq.once _ _ _ _ k ha' hb' hxk hyk
    · rcases get_set ha with ⟨rfl, rfl⟩ | ⟨na, ha⟩
      · rcases hmemo with ⟨em, e | e | ⟨f, files, q, _, e, hn, _⟩⟩ | ⟨f, files, q, _, _, rfl, _⟩
        · rw [e] at hxk; cases hxk
        · show k ∉ u.memo
          rw [em]; exact hq.new _ _ _ hw (e ▸ hxk)
        · rw [e] at hxk; cases hxk
          show _ ∉ u.memo
          rw [em]; exact hn
        · cases q <;> cases files <;> cases hxk
      · have hn := hq.new _ _ _ ha hxk
        rcases hmemo with ⟨em, _⟩ | ⟨f, files, q, _, rfl, _, em⟩
        · show k ∉ u.memo
          rw [em]; exact hn
        · show k ∉ u.memo
          rw [em]
          intro hk
          rcases List.mem_cons.1 hk with rfl | hk
          · exact na (hq.once _ _ _ _ _ hw ha rfl hxk)
          · exact hn hk
    · rcases get_set ha with ⟨rfl, rfl⟩ | ⟨na, ha⟩
      · rcases workerStep_parsing hx hxf with h | h
        · exact hsub _ (hq.line _ _ _ hw h)
        · exact h
      · exact hsub _ (hq.line _ _ _ ha hxf)

theorem queries_steps {n work : Nat} {ls : List Label} {s : State} (hs : Steps cost (start n work) ls s) : Queries s :=
  steps_keep (fun _ _ _ hq h => queries_step hq h) hs (queries_start n work)

/-- **C118.**  No two workers compute the same thing, and none computes what is up to date. -/
theorem computed_once (workers work : Nat) {ls : List Label} {s : State} (hs : Steps cost (start workers work) ls s)
    (i f : Nat) (q : Query) (h : Computes s i f q) : (f, q) ∉ s.memo ∧ ∀ j, Computes s j f q → j = i := by
  obtain ⟨files, left, hw⟩ := h
  refine ⟨(queries_steps hs).new i _ _ hw rfl, ?_⟩
  rintro j ⟨files', left', hw'⟩
  exact (queries_steps hs).once j i _ _ (f, q) hw' hw rfl rfl

/-- **C118.**  A worker goes on to its next file when its questions about a file are answered.  Otherwise a change is
under way, or it has waited for a thread that did not end the computation. -/
theorem file_answered_or_given_up (workers work : Nat) {ls : List Label} {s t : State}
    (hs : Steps cost (start workers work) ls s) (i f : Nat) (files : List Nat) (ph : Phase) (c : Choice)
    (hw : s.workers[i]? = some (.job (f :: files) ph)) (h : step cost s (.worker i c) = some t)
    (ht : t.workers[i]? = some (.job files .line)) :
    ((f, .lineIndex) ∈ t.memo ∧ (f, .parse) ∈ t.memo) ∨ s.cancelling = true ∨
      ∃ q, ph = .blocked q ∧ (f, q) ∉ s.memo ∧ ∀ j, ¬ Computes s j f q := by
  obtain ⟨w, w', u, hw', hx, rfl⟩ := worker_step h
  rw [hw] at hw'
  cases hw'
  have hwt : w' = .job files .line := by
    rcases get_set ht with ⟨_, e⟩ | ⟨e, _⟩
    · exact e.symm
    · exact absurd rfl e
  subst hwt
  have hline := (queries_steps hs).line i _ f hw
  have hmem : ∀ {q}, after f files q = .job files .line → q = .parse := by
    intro q hq
    cases q with
    | lineIndex => simp [after] at hq
    | parse => rfl
  cases c with
  | go =>
    cases ph with
    | line => simp only [workerStep] at hx; split at hx <;> simp at hx
    | locked => simp [workerStep] at hx
    | ask q =>
      simp only [workerStep] at hx
      split at hx
      · rename_i hc; exact .inr (.inl hc)
      · split at hx
        · rename_i hm
          simp only [Option.some.injEq, Prod.mk.injEq] at hx
          obtain ⟨e, rfl⟩ := hx
          cases hmem e
          exact .inl ⟨hline rfl, hm⟩
        · split at hx <;> simp at hx
    | blocked q =>
      simp only [workerStep] at hx
      split at hx
      · cases hx
      · rename_i hcl
        split at hx
        · rename_i hm
          simp only [Option.some.injEq, Prod.mk.injEq] at hx
          obtain ⟨e, rfl⟩ := hx
          cases hmem e
          exact .inl ⟨hline rfl, hm⟩
        · rename_i hm
          refine .inr (.inr ⟨q, rfl, hm, ?_⟩)
          rintro j ⟨files', left, hj⟩
          apply hcl
          exact List.any_eq_true.2 ⟨_, List.mem_of_getElem? hj, by simp [Worker.claim]⟩
    | busy q n =>
      cases n with
      | zero =>
        simp only [workerStep, Option.some.injEq, Prod.mk.injEq] at hx
        obtain ⟨e, rfl⟩ := hx
        cases hmem e
        exact .inl ⟨List.mem_cons_of_mem _ (hline rfl), List.mem_cons_self⟩
      | succ n => simp [workerStep] at hx
  | cancelled =>
    unfold workerStep at hx
    dsimp only at hx
    split at hx
    · split at hx
      · rename_i hc; exact .inr (.inl hc)
      · cases hx
    · cases hx
  | panic =>
    unfold workerStep at hx
    dsimp only at hx
    split at hx <;> cases hx

/-! ### Changes -/

/-- **C89.**  While the main thread writes the file store no worker reads it. -/
theorem no_reader_beside_writer (workers work : Nat) (hw : 0 < workers) {ls : List Label} {s : State}
    (hs : Steps cost (start workers work) ls s) (h : s.writing = true) (files : List Nat) :
    Worker.job files .locked ∉ s.workers := by
  intro hm
  have := writer_alone workers work hw hs h _ hm
  cases this

/-- **C89.**  Nobody but the writer is let in: a worker cannot begin to read while the main thread writes. -/
theorem no_entry_beside_writer {s : State} (h : s.writing = true) {i f : Nat} {files : List Nat}
    (hi : s.workers[i]? = some (.job (f :: files) .line)) : step cost s (.worker i .go) = none := by
  simp [step, hi, workerStep, h]

/-- **C118.**  The database is changed exactly when no worker is at work on diagnostics and none are waiting to be
computed; loading the workspace does not delay it. -/
theorem change_waits_for_diagnostics {s : State} {rest : List Op} (h : s.main = .write :: rest) :
    step cost s .main ≠ none ↔
      (∀ files ph, Worker.job files ph ∉ s.workers) ∧ ∀ files, Job.diagnostics files ∉ s.queue := by
  have hsnap : s.snapshots = false ↔
      (∀ files ph, Worker.job files ph ∉ s.workers) ∧ ∀ files, Job.diagnostics files ∉ s.queue := by
    unfold State.snapshots
    rw [Bool.or_eq_false_iff, List.any_eq_false, List.any_eq_false]
    constructor
    · rintro ⟨h1, h2⟩
      exact ⟨fun files ph hm => h2 _ hm rfl, fun files hm => h1 _ hm rfl⟩
    · rintro ⟨h1, h2⟩
      refine ⟨fun j hj => ?_, fun w hw => ?_⟩
      · cases j with
        | diagnostics files => exact absurd hj (h2 files)
        | load n => simp [Job.hasSnapshot]
      · cases w with
        | job files ph => exact absurd hw (h1 files ph)
        | idle => simp [Worker.hasSnapshot]
        | sending => simp [Worker.hasSnapshot]
        | loading n => simp [Worker.hasSnapshot]
  rw [← hsnap]
  simp only [step, mainStep, h]
  cases s.snapshots <;> simp

theorem memo_step {s t : State} {l : Label} (h : step cost s l = some t) :
    (t.memo = s.memo ∧ ¬ Writes s l) ∨ (t.memo = [] ∧ Writes s l) ∨
    ∃ i f files q, l = .worker i .go ∧ s.workers[i]? = some (.job (f :: files) (.busy q 0)) ∧ t.memo = (f, q) :: s.memo := by
  cases l with
  | event e c d n => exact .inl ⟨(other_steps h rfl).2.1, fun hw => by cases hw.1⟩
  | stop => exact .inl ⟨(other_steps h rfl).2.1, fun hw => by cases hw.1⟩
  | main =>
    rcases (main_memo h).2 with ⟨h1, h2⟩ | ⟨h1, h2, _⟩
    · exact .inl ⟨h1, fun hw => h2 hw.2⟩
    · exact .inr (.inl ⟨h1, rfl, h2⟩)
  | worker i c =>
    obtain ⟨w, w', u, hw, hx, rfl⟩ := worker_step h
    rcases workerStep_memo hx with ⟨e, _⟩ | ⟨f, files, q, rfl, rfl, _, e⟩
    · exact .inl ⟨e, fun hw => by cases hw.1⟩
    · exact .inr (.inr ⟨i, f, files, q, rfl, hw, e⟩)

theorem fresh_of_length (workers work : Nat) (n : Nat) : ∀ (ls : List Label) (s : State), ls.length = n →
    Steps cost (start workers work) ls s → ∀ f q, (f, q) ∈ s.memo →
    ∃ ls1 i ls2 s1 s2, ls = ls1 ++ .worker i .go :: ls2 ∧ Steps cost (start workers work) ls1 s1 ∧ Computes s1 i f q ∧
      step cost s1 (.worker i .go) = some s2 ∧ (f, q) ∈ s2.memo ∧ Steps cost s2 ls2 s ∧
      ∀ a l b v, ls2 = a ++ l :: b → Steps cost s2 a v → ¬ Writes v l := by
  induction n with
  | zero =>
    intro ls s hl hs f q hm
    cases List.length_eq_zero_iff.1 hl
    cases hs
    cases hm
  | succ n ih =>
    intro ls s hl hs f q hm
    rcases List.eq_nil_or_concat ls with rfl | ⟨ls', l, rfl⟩
    · cases hl
    rw [List.concat_eq_append] at hs hl ⊢
    obtain ⟨t, ht, hlast⟩ := steps_split hs
    cases hlast with
    | cons hstep hnil =>
      cases hnil
      have hcase : ((f, q) ∈ t.memo ∧ ¬ Writes t l) ∨
          ∃ i files, l = .worker i .go ∧ t.workers[i]? = some (.job (f :: files) (.busy q 0)) := by
        rcases memo_step hstep with ⟨e, hnw⟩ | ⟨e, _⟩ | ⟨i, g, files, p, rfl, hw, e⟩
        · exact .inl ⟨e ▸ hm, hnw⟩
        · rw [e] at hm; cases hm
        · rw [e] at hm
          rcases List.mem_cons.1 hm with he | hm
          · cases he
            exact .inr ⟨i, files, rfl, hw⟩
          · exact .inl ⟨hm, fun hw => by cases hw.1⟩
      rcases hcase with ⟨hmt, hnw⟩ | ⟨i, files, rfl, hw⟩
      · obtain ⟨ls1, i, ls2, s1, s2, e, h1, h2, h3, h4, h5, h6⟩ := ih ls' t (by simpa using hl) ht f q hmt
        refine ⟨ls1, i, ls2 ++ [l], s1, s2, by rw [e]; simp, h1, h2, h3, h4, steps_append h5 (.cons hstep (.nil _)), ?_⟩
        intro a l' b v hab hv
        rcases List.eq_nil_or_concat b with rfl | ⟨b', x, rfl⟩
        · obtain ⟨e1, e2⟩ := List.append_inj' hab rfl
          cases e2
          subst e1
          rw [steps_det hv h5]
          exact hnw
        · have hab' : ls2 ++ [l] = (a ++ l' :: b') ++ [x] := by simpa using hab
          exact h6 a l' b' v (List.append_inj' hab' rfl).1 hv
      · exact ⟨ls', i, [], t, s, rfl, ht, ⟨files, 0, hw⟩, hstep, hm, .nil _, fun a l b v hab => by cases a <;> cases hab⟩

/-- **C118.**  Every answer that is used was computed after the last change of the database: a worker has computed it
in this run, and the database was not changed since. -/
theorem answers_are_fresh (workers work : Nat) {ls : List Label} {s : State} (hs : Steps cost (start workers work) ls s)
    {f : Nat} {q : Query} (hm : (f, q) ∈ s.memo) :
    ∃ ls1 i ls2 s1 s2, ls = ls1 ++ .worker i .go :: ls2 ∧ Steps cost (start workers work) ls1 s1 ∧ Computes s1 i f q ∧
      step cost s1 (.worker i .go) = some s2 ∧ (f, q) ∈ s2.memo ∧ Steps cost s2 ls2 s ∧
      ∀ a l b v, ls2 = a ++ l :: b → Steps cost s2 a v → ¬ Writes v l :=
  fresh_of_length workers work _ ls s rfl hs f q hm

/-- Every change is announced to the workers just before. -/
def announced : List Op → Bool
  | [] => true
  | .cancel :: .write :: p => announced p
  | .cancel :: _ => false
  | .write :: _ => false
  | _ :: p => announced p

theorem announced_append (a b : List Op) (ha : announced a = true) (hb : announced b = true) : announced (a ++ b) = true := by
  fun_induction announced a with
  | case1 => exact hb
  | case2 p ih => simp only [List.cons_append, announced]; exact ih ha
  | case3 p => cases ha
  | case4 p => cases ha
  | case5 o p h1 h2 h3 ih =>
    rw [List.cons_append]
    unfold announced
    split <;> first | exact ih ha | simp_all

theorem announced_flatten (l : List (List Op)) (h : ∀ a ∈ l, announced a = true) : announced l.flatten = true := by
  induction l with
  | nil => rfl
  | cons a l ih =>
    rw [List.flatten_cons]
    exact announced_append _ _ (h a (by simp)) (ih fun x hx => h x (by simp [hx]))

theorem announced_turn (e : Bool) (c : Option Nat) (d : Option (List Nat)) (n : Nat) : announced (turn e c d n) = true := by
  unfold turn
  refine announced_append _ _ (announced_append _ _ (announced_append _ _ (announced_append _ _ ?_ rfl) ?_) ?_) ?_
  · cases e <;> rfl
  · cases c with
    | none => rfl
    | some w =>
      unfold applyChange
      show announced (List.flatten _) = true
      exact announced_flatten _ fun a ha => by rw [List.eq_of_mem_replicate ha]; rfl
  · cases d with
    | none => rfl
    | some files =>
      refine announced_append _ _ (announced_flatten _ fun a ha => ?_) rfl
      obtain ⟨_, _, rfl⟩ := List.mem_map.1 ha
      rfl
  · exact announced_flatten _ fun a ha => by rw [List.eq_of_mem_replicate ha]; rfl

/-- The change that comes next has been announced. -/
def Warned (s : State) : Prop :=
  announced s.main = true ∨ ∃ rest, s.main = .write :: rest ∧ announced rest = true ∧ s.cancelling = true

theorem warned_step {s t : State} {l : Label} (hw : Warned s) (h : step cost s l = some t) : Warned t := by
  cases l with
  | event e c d n =>
    simp only [step] at h
    split at h <;> cases h
    exact .inl (announced_turn e c d n)
  | stop =>
    simp only [step] at h
    split at h <;> cases h
    exact .inl rfl
  | worker i c =>
    obtain ⟨w, w', u, _, hx, rfl⟩ := worker_step h
    obtain ⟨h1, _, _, _, h2, _⟩ := workerStep_state hx
    unfold Warned at hw ⊢
    simp only [h1, h2]
    exact hw
  | main =>
    rcases hw with hw | ⟨rest, hm, ha, hc⟩
    · simp only [step] at h
      unfold mainStep at h
      split at h
      · cases h
      · rename_i rest hm
        rw [hm] at hw
        split at h
        · cases h
        · split at h
          · split at h <;> cases h
            exact .inl (by simpa [hm] using hw)
          · cases h; exact .inl hw
      · rename_i rest hm; rw [hm] at hw; cases h; exact .inl hw
      · rename_i rest hm; rw [hm] at hw
        split at h <;> cases h
        exact .inl hw
      · rename_i rest hm; rw [hm] at hw; cases h; exact .inl hw
      · rename_i rest hm
        rw [hm] at hw
        cases h
        cases rest with
        | nil => cases hw
        | cons o rest =>
          cases o <;> first | cases hw; done | exact .inr ⟨rest, rfl, hw, rfl⟩
      · rename_i rest hm; rw [hm] at hw; cases hw
      · rename_i j rest hm; rw [hm] at hw; cases h; exact .inl hw
      · rename_i rest hm; rw [hm] at hw
        split at h <;> cases h
        exact .inl hw
    · simp only [step, mainStep, hm] at h
      split at h <;> cases h
      exact .inl ha

/-- **C118.**  A change does not wait for outdated computations: whenever the main thread is about to change the
database, every worker that computes can give up at once. -/
theorem change_interrupts (workers work : Nat) {ls : List Label} {s : State} (hs : Steps cost (start workers work) ls s)
    {rest : List Op} (h : s.main = .write :: rest) (i f : Nat) (q : Query) (hc : Computes s i f q) :
    ∃ t files, step cost s (.worker i .cancelled) = some t ∧ t.workers[i]? = some (.job files .line) := by
  have hw : Warned s := steps_keep (fun _ _ _ hq h => warned_step hq h) hs (.inl rfl)
  have hcan : s.cancelling = true := by
    rcases hw with hw | ⟨_, _, _, hc⟩
    · rw [h] at hw; cases hw
    · exact hc
  obtain ⟨files, left, hi⟩ := hc
  refine ⟨{ s with workers := s.workers.set i (.job files .line) }, files, by simp [step, hi, workerStep, hcan], ?_⟩
  show (s.workers.set i _)[i]? = _
  rw [List.getElem?_set, if_pos rfl, if_pos (List.getElem?_eq_some_iff.1 hi).1]

/-! ### Work given to the pool -/

def busyCount (s : State) : Nat := (s.workers.map fun w => if w = .idle then 0 else 1).sum

theorem workerStep_busy {s t : State} {w w' : Worker} {c : Choice} (h : workerStep cost s w c = some (w', t)) :
    (w = .idle ∧ w' ≠ .idle ∧ ∃ j, s.queue = j :: t.queue) ∨ (w ≠ .idle ∧ t.queue = s.queue) := by
  by_cases hw : w = .idle
  · subst hw
    refine .inl ?_
    cases c with
    | go =>
      unfold workerStep at h
      cases hq : s.queue with
      | nil => simp [hq] at h
      | cons j rest =>
        simp only [hq, Option.some.injEq, Prod.mk.injEq] at h
        obtain ⟨rfl, rfl⟩ := h
        exact ⟨rfl, by cases j <;> simp [Job.start], j, rfl⟩
    | cancelled => cases h
    | panic => cases h
  · refine .inr ⟨hw, ?_⟩
    cases c with
    | go =>
      unfold workerStep at h
      cases w with
      | idle => exact absurd rfl hw
      | sending => cases h; rfl
      | loading n => cases n <;> cases h <;> rfl
      | job files ph =>
        cases files with
        | nil => cases h; rfl
        | cons f files =>
          cases ph with
          | line => simp only at h; split at h <;> cases h <;> rfl
          | locked => cases h; rfl
          | ask q => simp only at h; (repeat' split at h) <;> cases h <;> rfl
          | blocked q => simp only at h; (repeat' split at h) <;> cases h <;> rfl
          | busy q n => cases n <;> cases h <;> rfl
    | cancelled =>
      unfold workerStep at h
      dsimp only at h
      (repeat' split at h) <;> cases h <;> rfl
    | panic =>
      unfold workerStep at h
      dsimp only at h
      (repeat' split at h) <;> cases h <;> rfl

theorem main_queue {s t : State} (h : mainStep s = some t) :
    t.workers = s.workers ∧ t.queue.length = s.queue.length + (if gives s .main t then 1 else 0) := by
  unfold mainStep at h
  unfold gives
  split at h <;> rename_i hm <;> (repeat' split at h) <;> cases h <;> simp [hm]

theorem tally_step {s t : State} {l : Label} (h : step cost s l = some t) :
    (if gives s l t then 1 else 0) + s.queue.length + busyCount s = t.queue.length + busyCount t + (if frees s l t then 1 else 0) := by
  cases l with
  | event e c d n =>
    obtain ⟨h1, _, h3⟩ := other_steps h rfl
    simp [gives, frees, busyCount, h1, h3]
  | stop =>
    obtain ⟨h1, _, h3⟩ := other_steps h rfl
    simp [gives, frees, busyCount, h1, h3]
  | main =>
    obtain ⟨h1, h2⟩ := main_queue h
    simp only [frees, busyCount, h1, h2]
    simp
    omega
  | worker i c =>
    obtain ⟨w, w', u, hw, hx, rfl⟩ := worker_step h
    have hsum := sum_set (fun w => if w = Worker.idle then 0 else 1) s.workers i w w' hw
    have hget : (s.workers.set i w')[i]? = some w' := by
      rw [List.getElem?_set, if_pos rfl, if_pos (List.getElem?_eq_some_iff.1 hw).1]
    simp only [gives, frees, busyCount, hget, hw]
    rcases workerStep_busy hx with ⟨rfl, h2, j, h3⟩ | ⟨h1, h2⟩
    · rw [h3]
      simp [h2] at hsum ⊢
      omega
    · rw [h2]
      by_cases h3 : w' = .idle
      · simp [h1, h3] at hsum ⊢
        omega
      · simp [h1, h3] at hsum ⊢
        omega

theorem tally_steps {s t : State} {ls : List Label} (h : Steps cost s ls t) :
    tally cost gives s ls + s.queue.length + busyCount s = t.queue.length + busyCount t + tally cost frees s ls := by
  induction h with
  | nil => simp [tally]
  | @cons s t u l ls h _ ih =>
    simp only [tally, h]
    have := tally_step h
    omega

/-- **C88.**  When nothing is left to do, workers have taken up and ended exactly the work that was given to the
pool. -/
theorem given_work_is_done (workers work : Nat) {ls : List Label} {s : State}
    (hs : Steps cost (start workers work) ls s) (hq : Quiet s) :
    tally cost gives (start workers work) ls = tally cost frees (start workers work) ls := by
  have h := tally_steps hs
  have h0 : busyCount (start workers work) = 0 := by
    unfold busyCount start
    generalize workers = n
    induction n with
    | zero => rfl
    | succ n ih => rw [List.replicate_succ, List.map_cons, List.sum_cons, ih]; rfl
  have h1 : busyCount s = 0 := by
    unfold busyCount
    have := hq.workers
    generalize s.workers = l at this
    induction l with
    | nil => rfl
    | cons w l ih =>
      rw [List.map_cons, List.sum_cons, ih fun x hx => this x (by simp [hx]), this w (by simp)]
      rfl
  rw [h0, h1, hq.queue] at h
  simp [start] at h ⊢
  omega

/-! ### The end -/

/-- **C89.**  A server that is stopped has ended when nothing is left to do. -/
theorem stopped_server_ends (workers work : Nat) {ls : List Label} {s : State}
    (hs : Steps cost (start workers work) ls s) (hstop : .stop ∈ ls) (hq : Quiet s) : s.receiver = false := by
  obtain ⟨a, b, rfl⟩ := List.append_of_mem hstop
  obtain ⟨t, _, h⟩ := steps_split hs
  cases h with
  | @cons _ u _ _ _ hstep hrest =>
    have hu : u.receiver = false ∨ u.main.getLast? = some .join := by
      simp only [step] at hstep
      split at hstep <;> cases hstep
      exact .inr rfl
    have := steps_keep (P := fun s => s.receiver = false ∨ s.main.getLast? = some .join) (fun s t l hp h => ?_) hrest hu
    · rcases this with h | h
      · exact h
      · rw [hq.main] at h; cases h
    · cases l with
      | event e c d n =>
        simp only [step] at h
        split at h
        · rename_i hc
          rw [Bool.and_eq_true, List.isEmpty_iff] at hc
          rcases hp with hp | hp
          · rw [hc.2] at hp; cases hp
          · rw [hc.1] at hp; cases hp
        · cases h
      | stop =>
        simp only [step] at h
        split at h <;> cases h
        exact .inr rfl
      | worker i c =>
        obtain ⟨w, w', u, _, hx, rfl⟩ := worker_step h
        obtain ⟨h1, _, _, _, _, _, h2, _⟩ := workerStep_state hx
        simp only [h1, h2]
        exact hp
      | main =>
        simp only [step] at h
        have htail : ∀ {o : Op} {rest : List Op}, (o :: rest).getLast? = some .join → o ≠ .join → rest.getLast? = some .join := by
          intro o rest h1 h2
          cases rest with
          | nil => cases h1; exact absurd rfl h2
          | cons x rest => simpa [List.getLast?_cons_cons] using h1
        unfold mainStep at h
        split at h <;> rename_i hm <;> (repeat' split at h) <;> cases h <;>
          first
          | exact hp
          | exact .inl rfl
          | exact hp.imp id fun hp => htail (hm ▸ hp) (by simp)

/-! ### Instances -/

/-- The main thread is about to change the database while a worker computes. -/
example : ∃ s, Steps (fun _ _ => 3) (start 2 5) (busyRun ++ [.worker 0 .go, .main, .main, .main, .main, .main]) s ∧
    (s.main.head? == some .write && s.workers[1]? == some (.job [7, 8] (.busy .lineIndex 3)) &&
      (step (fun _ _ => 3) s .main).isNone && (step (fun _ _ => 3) s (.worker 1 .cancelled)).isSome) = true :=
  reached (by decide +kernel)

/-- One document, one worker: both answers are computed and known, the diagnostics are sent. -/
def answeredRun : List Label :=
  [.main, .worker 0 .go, .worker 0 .go, .event false none (some [7]) 0, .main, .main, .main, .main, .main] ++
  List.replicate 11 (.worker 0 .go)

example : ∃ s, Steps (fun _ _ => 1) (start 1 0) answeredRun s ∧
    (s.memo == [(7, .parse), (7, .lineIndex)] && s.main.isEmpty && s.queue.isEmpty && s.workers == [.idle] &&
      tally (fun _ _ => 1) gives (start 1 0) answeredRun == 2) = true :=
  reached (by decide +kernel)

/-- The next edit makes the answers unknown again. -/
example : ∃ s, Steps (fun _ _ => 1) (start 1 0) (answeredRun ++ .event true (some 1) none 0 :: List.replicate 8 .main) s ∧
    (s.memo == [] && s.main.isEmpty) = true :=
  reached (by decide +kernel)

end Verif.Server.Threads
