import Verif.Server.ThreadsModel

set_option autoImplicit false

/-!
C88: no schedule of the threads makes the server hang.  C89: threads do not disturb each other.
-/

namespace Verif.Server.Threads

namespace Spec

/-- Steps that are taken without a new event, and without a panic of the main thread. -/
def internal : Label → Bool
  | .worker _ _ | .main => true
  | .event _ _ _ _ | .stop => false

/-- Nothing is left to do. -/
structure Quiet (s : State) : Prop where
  main : s.main = []
  queue : s.queue = []
  workers : ∀ w, w ∈ s.workers → w = .idle

end Spec

open Spec

variable {cost : Nat → Query → Nat}

/-! ### Programs of the main thread -/

/-- The program takes one lock at a time, waits for others only without a lock, and ends with none. -/
def fine : Bool → Bool → List Op → Bool
  | false, false, [] => true
  | false, false, .lockWrite :: p => fine true false p
  | true, false, .unlockWrite :: p => fine false false p
  | false, false, .lockRead :: p => fine false true p
  | false, true, .unlockRead :: p => fine false false p
  | false, false, .cancel :: .write :: p => fine false false p
  | false, false, .write :: p => fine false false p
  | false, false, .spawn _ :: p => fine false false p
  | false, false, [.join] => true
  | _, _, _ => false

theorem fine_reads (n : Nat) (p : List Op) (h : fine false false p = true) :
    fine false false ((List.replicate n [Op.lockRead, .unlockRead]).flatten ++ p) = true := by
  induction n with
  | zero => exact h
  | succ n ih => exact ih

theorem fine_writes (n : Nat) (p : List Op) (h : fine false false p = true) :
    fine false false ((List.replicate n [Op.cancel, .write]).flatten ++ p) = true := by
  induction n with
  | zero => exact h
  | succ n ih => exact ih

theorem fine_maps (files : List Nat) (p : List Op) (h : fine false false p = true) :
    fine false false ((files.map fun _ => [Op.lockRead, .unlockRead]).flatten ++ p) = true := by
  induction files with
  | nil => exact h
  | cons f files ih => exact ih

theorem fine_turn (edits : Bool) (changed : Option Nat) (subs : Option (List Nat)) (published : Nat) :
    fine false false (turn edits changed subs published) = true := by
  have h1 : fine false false ((List.replicate published [Op.lockRead, .unlockRead]).flatten) = true := by
    have := fine_reads published [] rfl
    rwa [List.append_nil] at this
  have h2 : fine false false ((match (generalizing := false) subs with
      | none => []
      | some files => (files.map fun _ => [Op.lockRead, .unlockRead]).flatten ++ [.spawn (.diagnostics files)]) ++
      (List.replicate published [Op.lockRead, .unlockRead]).flatten) = true := by
    cases subs with
    | none => exact h1
    | some files => rw [List.append_assoc]; exact fine_maps files _ h1
  have h3 : fine false false ((match (generalizing := false) changed with | none => [] | some writes => applyChange writes) ++
      ((match (generalizing := false) subs with
      | none => []
      | some files => (files.map fun _ => [Op.lockRead, .unlockRead]).flatten ++ [.spawn (.diagnostics files)]) ++
      (List.replicate published [Op.lockRead, .unlockRead]).flatten)) = true := by
    cases changed with
    | none => exact h2
    | some w => exact fine_writes w _ h2
  unfold turn
  cases edits <;> simp only [List.append_assoc, if_true] at h3 ⊢ <;> exact h3

/-! ### Invariant -/

structure Inv (s : State) : Prop where
  fine : fine s.writing s.reading s.main = true
  apart : s.writing = true → s.readers = false
  parked : s.parked = true → ∃ rest, s.main = .lockWrite :: rest
  pool : s.workers ≠ []
  ended : s.receiver = false → Quiet s
  lost : s.lost = false
  cancelling : s.cancelling = true → (∃ rest, s.main = .write :: rest) ∨ s.main = shutdown

theorem inv_start (n work : Nat) (hn : 0 < n) : Inv (start n work) where
  fine := rfl
  apart := by intro h; cases h
  parked := by intro h; cases h
  pool := by
    intro h
    have : (List.replicate n Worker.idle).length = 0 := by rw [show List.replicate n Worker.idle = [] from h]; rfl
    rw [List.length_replicate] at this
    omega
  ended := by intro h; cases h
  lost := rfl
  cancelling := by intro h; cases h

theorem any_set {α : Type} {p : α → Bool} {l : List α} {i : Nat} {a : α} (h : (l.set i a).any p = true) :
    p a = true ∨ l.any p = true := by
  rw [List.any_eq_true] at h
  obtain ⟨x, hx, hp⟩ := h
  rcases List.mem_or_eq_of_mem_set hx with hx | rfl
  · exact Or.inr (List.any_eq_true.2 ⟨x, hx, hp⟩)
  · exact Or.inl hp

/-- What a step of a worker does to the state. -/
theorem workerStep_state {s t : State} {w w' : Worker} {c : Choice} (h : workerStep cost s w c = some (w', t)) :
    t.main = s.main ∧ t.writing = s.writing ∧ t.reading = s.reading ∧ t.parked = s.parked ∧
    t.cancelling = s.cancelling ∧ t.workers = s.workers ∧ t.receiver = s.receiver ∧
    (t.queue = s.queue ∨ ∃ j, s.queue = j :: t.queue) ∧ (t.lost = s.lost ∨ w = .sending ∧ t.lost = (s.lost || !s.receiver)) ∧
    (w'.reads = true → s.writing = false) := by
  cases c with
  | go =>
    cases w with
    | idle =>
      unfold workerStep at h
      cases hq : s.queue with
      | nil => simp [hq] at h
      | cons j rest =>
        simp only [hq, Option.some.injEq, Prod.mk.injEq] at h
        obtain ⟨rfl, rfl⟩ := h
        refine ⟨rfl, rfl, rfl, rfl, rfl, rfl, rfl, Or.inr ⟨j, rfl⟩, Or.inl rfl, ?_⟩
        cases j <;> intro h <;> cases h
    | sending =>
      simp only [workerStep, Option.some.injEq, Prod.mk.injEq] at h
      obtain ⟨rfl, rfl⟩ := h
      exact ⟨rfl, rfl, rfl, rfl, rfl, rfl, rfl, Or.inl rfl, Or.inr ⟨rfl, rfl⟩, fun h => by cases h⟩
    | loading n =>
      cases n <;> simp only [workerStep, Option.some.injEq, Prod.mk.injEq] at h <;> obtain ⟨rfl, rfl⟩ := h <;>
        exact ⟨rfl, rfl, rfl, rfl, rfl, rfl, rfl, Or.inl rfl, Or.inl rfl, fun h => by cases h⟩
    | job files ph =>
      cases files with
      | nil =>
        simp only [workerStep, Option.some.injEq, Prod.mk.injEq] at h
        obtain ⟨rfl, rfl⟩ := h
        exact ⟨rfl, rfl, rfl, rfl, rfl, rfl, rfl, Or.inl rfl, Or.inl rfl, fun h => by cases h⟩
      | cons f files =>
        have hafter : ∀ q, (after f files q).reads = true → False := by intro q h; cases q <;> cases h
        cases ph with
        | line =>
          simp only [workerStep] at h
          split at h
          · cases h
          · rename_i hw
            cases h
            refine ⟨rfl, rfl, rfl, rfl, rfl, rfl, rfl, Or.inl rfl, Or.inl rfl, fun _ => ?_⟩
            cases hh : s.writing with
            | false => rfl
            | true => simp [hh] at hw
        | locked =>
          cases h
          exact ⟨rfl, rfl, rfl, rfl, rfl, rfl, rfl, Or.inl rfl, Or.inl rfl, fun h => by cases h⟩
        | ask q =>
          simp only [workerStep] at h
          split at h
          · cases h
            exact ⟨rfl, rfl, rfl, rfl, rfl, rfl, rfl, Or.inl rfl, Or.inl rfl, fun h => by cases h⟩
          · split at h
            · cases h
              exact ⟨rfl, rfl, rfl, rfl, rfl, rfl, rfl, Or.inl rfl, Or.inl rfl, fun h => (hafter q h).elim⟩
            · split at h <;> cases h <;>
                exact ⟨rfl, rfl, rfl, rfl, rfl, rfl, rfl, Or.inl rfl, Or.inl rfl, fun h => by cases h⟩
        | blocked q =>
          simp only [workerStep] at h
          split at h
          · cases h
          · split at h
            · cases h
              exact ⟨rfl, rfl, rfl, rfl, rfl, rfl, rfl, Or.inl rfl, Or.inl rfl, fun h => (hafter q h).elim⟩
            · cases h
              exact ⟨rfl, rfl, rfl, rfl, rfl, rfl, rfl, Or.inl rfl, Or.inl rfl, fun h => by cases h⟩
        | busy q n =>
          cases n with
          | zero =>
            cases h
            exact ⟨rfl, rfl, rfl, rfl, rfl, rfl, rfl, Or.inl rfl, Or.inl rfl, fun h => (hafter q h).elim⟩
          | succ n =>
            cases h
            exact ⟨rfl, rfl, rfl, rfl, rfl, rfl, rfl, Or.inl rfl, Or.inl rfl, fun h => by cases h⟩
  | cancelled =>
    unfold workerStep at h
    dsimp only at h
    split at h
    · split at h
      · cases h
        exact ⟨rfl, rfl, rfl, rfl, rfl, rfl, rfl, Or.inl rfl, Or.inl rfl, fun h => by cases h⟩
      · cases h
    · cases h
  | panic =>
    unfold workerStep at h
    dsimp only at h
    split at h <;> cases h <;> exact ⟨rfl, rfl, rfl, rfl, rfl, rfl, rfl, Or.inl rfl, Or.inl rfl, fun h => by cases h⟩

/-- A worker that has nothing to do can only take a job. -/
theorem workerStep_idle {s t : State} {w' : Worker} {c : Choice} (hq : s.queue = [])
    (h : workerStep cost s .idle c = some (w', t)) : False := by
  cases c <;> simp [workerStep, hq] at h

theorem inv_worker {s t : State} (hi : Inv s) {i : Nat} {c : Choice} (h : step cost s (.worker i c) = some t) : Inv t := by
  unfold step at h
  dsimp only at h
  split at h
  · cases h
  · rename_i w hw
    split at h
    · cases h
    · rename_i w' u hu
      simp only [Option.some.injEq] at h
      subst h
      obtain ⟨h1, h2, h3, h4, h5, h6, h7, h8, h9, h10⟩ := workerStep_state hu
      have hend : s.receiver = true := by
        cases hr : s.receiver with
        | true => rfl
        | false =>
          have hq := hi.ended hr
          have : w = .idle := hq.workers w (List.mem_of_getElem? hw)
          subst this
          exact (workerStep_idle hq.queue hu).elim
      refine ⟨?_, ?_, ?_, ?_, ?_, ?_, ?_⟩
      · rw [show ({ u with workers := u.workers.set i w' } : State).main = u.main from rfl, h1]
        show fine u.writing u.reading s.main = true
        rw [h2, h3]; exact hi.fine
      · intro hwr
        have hwr : s.writing = true := h2 ▸ hwr
        show (u.workers.set i w').any Worker.reads = false
        cases ha : (u.workers.set i w').any Worker.reads with
        | false => rfl
        | true =>
          rcases any_set ha with ha | ha
          · rw [h10 ha] at hwr; cases hwr
          · rw [h6] at ha
            have := hi.apart hwr
            unfold State.readers at this
            rw [this] at ha; cases ha
      · intro hp
        rw [show ({ u with workers := u.workers.set i w' } : State).main = u.main from rfl, h1]
        exact hi.parked (h4 ▸ hp)
      · intro hnil
        apply hi.pool
        have : (u.workers.set i w').length = 0 := by rw [show u.workers.set i w' = [] from hnil]; rfl
        rw [List.length_set, h6] at this
        exact List.length_eq_zero_iff.1 this
      · intro hr
        have : s.receiver = false := h7 ▸ hr
        rw [hend] at this; cases this
      · show u.lost = false
        rcases h9 with h9 | ⟨_, h9⟩
        · rw [h9]; exact hi.lost
        · rw [h9, hi.lost, hend]; rfl
      · intro hc
        rw [show ({ u with workers := u.workers.set i w' } : State).main = u.main from rfl, h1]
        exact hi.cancelling (h5 ▸ hc)

/-- Which flags a fine program has at its first operation. -/
theorem fine_cons {a b : Bool} {o : Op} {p : List Op} (h : fine a b (o :: p) = true) :
    (o = .unlockWrite → a = true ∧ b = false ∧ fine false false p = true) ∧
    (o = .unlockRead → a = false ∧ b = true ∧ fine false false p = true) ∧
    (o ≠ .unlockWrite → o ≠ .unlockRead → a = false ∧ b = false) ∧
    (o = .lockWrite → fine true false p = true) ∧ (o = .lockRead → fine false true p = true) ∧
    (o = .write ∨ (∃ j, o = .spawn j) → fine false false p = true) ∧
    (o = .cancel → fine false false p = true ∧ ∃ r, p = .write :: r) ∧ (o = .join → p = []) := by
  cases a <;> cases b <;> cases o <;> try (simp_all [fine]; done)
  · cases p with
    | nil => simp [fine] at h
    | cons o p => cases o <;> simp_all [fine]
  · cases p with
    | nil => simp
    | cons => simp [fine] at h

theorem inv_main {s t : State} (hi : Inv s) (h : mainStep s = some t) : Inv t := by
  unfold mainStep at h
  split at h
  · cases h
  · -- lockWrite
    rename_i rest hm
    have hf := hi.fine; rw [hm] at hf
    obtain ⟨-, -, f3, f4, -, -, -, -⟩ := fine_cons hf
    obtain ⟨fw, fr⟩ := f3 (by decide) (by decide)
    have hr : s.receiver = true := by
      cases hr : s.receiver with
      | true => rfl
      | false => rw [(hi.ended hr).main] at hm; cases hm
    have hc : s.cancelling = false := by
      cases hc : s.cancelling with
      | false => rfl
      | true => rcases hi.cancelling hc with ⟨r, e⟩ | e <;> rw [hm] at e <;> cases e
    split at h
    · cases h
    · split at h
      · split at h
        · cases h
        · cases h
          exact ⟨hi.fine, hi.apart, fun _ => ⟨rest, hm⟩, hi.pool,
            (fun hx => by have hx : s.receiver = false := hx; rw [hr] at hx; cases hx), hi.lost, hi.cancelling⟩
      · rename_i hnr
        cases h
        refine ⟨?_, ?_, ?_, hi.pool, ?_, hi.lost, ?_⟩
        · show fine true s.reading rest = true
          rw [fr]; exact f4 rfl
        · intro _
          cases hx : s.readers with
          | false => exact hx
          | true => exact absurd hx hnr
        · intro hp; cases hp
        · intro hx
          have hx : s.receiver = false := hx
          rw [hr] at hx; cases hx
        · intro hx
          have hx : s.cancelling = true := hx
          rw [hc] at hx; cases hx
  all_goals
    rename_i rest hm
    have hf := hi.fine; rw [hm] at hf
    obtain ⟨f1, f2, f3, -, f5, f6, f8, f7⟩ := fine_cons hf
    have hr : s.receiver = true := by
      cases hr : s.receiver with
      | true => rfl
      | false => rw [(hi.ended hr).main] at hm; cases hm
    have hp : s.parked = false := by
      cases hp : s.parked with
      | false => rfl
      | true => obtain ⟨r, e⟩ := hi.parked hp; rw [hm] at e; cases e
    have hx : ∀ {u : State}, u.receiver = s.receiver → u.receiver = false → Quiet u := by
      intro u h1 h2; rw [h1, hr] at h2; cases h2
    have hpp : ∀ {u : State}, u.parked = s.parked → u.parked = true → ∃ r, u.main = .lockWrite :: r := by
      intro u h1 h2; rw [h1, hp] at h2; cases h2
  · -- unlockWrite
    cases h
    obtain ⟨_, fr, fp⟩ := f1 rfl
    refine ⟨by show fine false s.reading rest = true; rw [fr]; exact fp, (by intro h; cases h), hpp rfl, hi.pool, hx rfl, hi.lost, ?_⟩
    intro hc
    have hc : s.cancelling = true := hc
    rcases hi.cancelling hc with ⟨r, e⟩ | e <;> rw [hm] at e <;> cases e
  · -- lockRead
    split at h
    · cases h
    · cases h
      obtain ⟨fw, _⟩ := f3 (by decide) (by decide)
      refine ⟨by show fine s.writing true rest = true; rw [fw]; exact f5 rfl, hi.apart, hpp rfl, hi.pool, hx rfl, hi.lost, ?_⟩
      intro hc
      have hc : s.cancelling = true := hc
      rcases hi.cancelling hc with ⟨r, e⟩ | e <;> rw [hm] at e <;> cases e
  · -- unlockRead
    cases h
    obtain ⟨fw, _, fp⟩ := f2 rfl
    refine ⟨by show fine s.writing false rest = true; rw [fw]; exact fp, hi.apart, hpp rfl, hi.pool, hx rfl, hi.lost, ?_⟩
    intro hc
    have hc : s.cancelling = true := hc
    rcases hi.cancelling hc with ⟨r, e⟩ | e <;> rw [hm] at e <;> cases e
  · -- cancel
    cases h
    obtain ⟨fw, fr⟩ := f3 (by decide) (by decide)
    obtain ⟨fp, r, e⟩ := f8 rfl
    exact ⟨by show fine s.writing s.reading rest = true; rw [fw, fr]; exact fp, hi.apart, hpp rfl, hi.pool, hx rfl,
      hi.lost, fun _ => Or.inl ⟨r, e⟩⟩
  · -- write
    split at h
    · cases h
    · cases h
      obtain ⟨fw, fr⟩ := f3 (by decide) (by decide)
      exact ⟨by show fine s.writing s.reading rest = true; rw [fw, fr]; exact f6 (Or.inl rfl), hi.apart, hpp rfl,
        hi.pool, hx rfl, hi.lost, fun h => by cases h⟩
  · -- spawn
    cases h
    obtain ⟨fw, fr⟩ := f3 (by simp) (by simp)
    refine ⟨by show fine s.writing s.reading rest = true; rw [fw, fr]; exact f6 (Or.inr ⟨_, rfl⟩), hi.apart, hpp rfl,
      hi.pool, hx rfl, hi.lost, ?_⟩
    intro hc
    have hc : s.cancelling = true := hc
    rcases hi.cancelling hc with ⟨r, e⟩ | e <;> rw [hm] at e <;> cases e
  · -- join
    split at h
    · rename_i hq
      cases h
      obtain ⟨fw, fr⟩ := f3 (by decide) (by decide)
      have he := f7 rfl
      subst he
      rw [Bool.and_eq_true, List.isEmpty_iff] at hq
      refine ⟨by show fine s.writing s.reading [] = true; rw [fw, fr]; rfl, hi.apart, hpp rfl, hi.pool, ?_, hi.lost, ?_⟩
      · intro _
        refine ⟨rfl, hq.1, fun w hw => ?_⟩
        exact eq_of_beq (List.all_eq_true.1 hq.2 w hw)
      · intro hc
        have hc : s.cancelling = true := hc
        rcases hi.cancelling hc with ⟨r, e⟩ | e <;> rw [hm] at e <;> cases e
    · cases h

theorem inv_step {s t : State} (hi : Inv s) {l : Label} (h : step cost s l = some t) : Inv t := by
  cases l with
  | worker i c => exact inv_worker hi h
  | main => exact inv_main hi h
  | event e c d n =>
    simp only [step] at h
    split at h
    · rename_i hc
      cases h
      rw [Bool.and_eq_true, List.isEmpty_iff] at hc
      have hf := hi.fine
      rw [hc.1] at hf
      have hw : s.writing = false ∧ s.reading = false := by
        revert hf; cases s.writing <;> cases s.reading <;> simp [fine]
      refine ⟨?_, hi.apart, ?_, hi.pool, ?_, hi.lost, ?_⟩
      · show fine s.writing s.reading _ = true
        rw [hw.1, hw.2]; exact fine_turn e c d n
      · intro hp
        obtain ⟨r, e⟩ := hi.parked hp
        rw [hc.1] at e; cases e
      · intro hr
        have hr : s.receiver = false := hr
        rw [hc.2] at hr; cases hr
      · intro hx
        rcases hi.cancelling hx with ⟨r, e⟩ | e <;> rw [hc.1] at e <;> cases e
    · cases h
  | stop =>
    simp only [step] at h
    split at h
    · rename_i hr
      cases h
      refine ⟨rfl, (fun h => by cases h), (fun h => by cases h), hi.pool, ?_, hi.lost, fun _ => Or.inr rfl⟩
      intro hx
      have hx : s.receiver = false := hx
      rw [hr] at hx; cases hx
    · cases h

theorem inv_steps {s t : State} {ls : List Label} (h : Steps cost s ls t) : Inv s → Inv t := by
  induction h with
  | nil => exact id
  | cons h _ ih => exact fun hi => ih (inv_step hi h)

/-! ### Progress -/

theorem worker_moves {s : State} {i : Nat} {w : Worker} {c : Choice} (hw : s.workers[i]? = some w)
    (h : workerStep cost s w c ≠ none) : ∃ l, internal l = true ∧ step cost s l ≠ none := by
  refine ⟨.worker i c, rfl, ?_⟩
  simp only [step, hw]
  cases hh : workerStep cost s w c with
  | none => exact absurd hh h
  | some p => exact fun e => by cases e

theorem locked_moves {s : State} (h : s.readers = true) : ∃ l, internal l = true ∧ step cost s l ≠ none := by
  obtain ⟨w, hw, hr⟩ := List.any_eq_true.1 h
  obtain ⟨i, hi⟩ := List.getElem?_of_mem hw
  refine worker_moves (c := .go) hi ?_
  unfold Worker.reads at hr
  split at hr
  · rename_i files
    cases files <;> simp [workerStep]
  · cases hr

theorem claimed_moves {s : State} {k : Nat × Query} (h : s.claimed k = true) :
    ∃ l, internal l = true ∧ step cost s l ≠ none := by
  obtain ⟨w, hw, hr⟩ := List.any_eq_true.1 h
  obtain ⟨i, hi⟩ := List.getElem?_of_mem hw
  refine worker_moves (c := .go) hi ?_
  have h2 : w.claim = some k := by simpa using hr
  clear hr
  unfold Worker.claim at h2
  split at h2
  · rename_i n
    cases n <;> simp [workerStep]
  · cases h2

/-- While there is something to do, some thread can do it. -/
theorem never_stuck {s : State} (hi : Inv s) (h : ¬ Quiet s) : ∃ l, internal l = true ∧ step cost s l ≠ none := by
  by_cases hall : ∀ w, w ∈ s.workers → w = .idle
  · -- the workers are idle
    cases hq : s.queue with
    | cons j rest =>
      cases hp : s.workers with
      | nil => exact absurd hp hi.pool
      | cons w ws =>
        have : w = .idle := hall w (by rw [hp]; exact List.mem_cons_self)
        subst this
        exact worker_moves (i := 0) (w := .idle) (c := .go) (by rw [hp]; rfl) (by simp [workerStep, hq])
    | nil =>
      refine ⟨.main, rfl, ?_⟩
      show mainStep s ≠ none
      cases hm : s.main with
      | nil => exact absurd ⟨hm, hq, hall⟩ h
      | cons o rest =>
        have hf := hi.fine; rw [hm] at hf
        obtain ⟨-, -, f3, -⟩ := fine_cons hf
        have hn : s.readers = false := by
          cases hr : s.readers with
          | false => rfl
          | true =>
            obtain ⟨w, hw, hx⟩ := List.any_eq_true.1 hr
            rw [hall w hw] at hx; cases hx
        have hs : s.snapshots = false := by
          unfold State.snapshots
          rw [hq, Bool.or_eq_false_iff]
          refine ⟨rfl, ?_⟩
          cases hr : s.workers.any Worker.hasSnapshot with
          | false => rfl
          | true =>
            obtain ⟨w, hw, hx⟩ := List.any_eq_true.1 hr
            rw [hall w hw] at hx; cases hx
        unfold mainStep
        rw [hm]
        cases o with
        | lockWrite =>
          obtain ⟨fw, fr⟩ := f3 (by decide) (by decide)
          simp [fw, fr, hn]
        | unlockWrite => simp
        | lockRead =>
          obtain ⟨fw, fr⟩ := f3 (by decide) (by decide)
          simp [fw]
        | unlockRead => simp
        | cancel => simp
        | write => simp [hs]
        | spawn j => simp
        | join =>
          have : (s.workers.all fun w => w == .idle) = true := List.all_eq_true.2 fun w hw => by rw [hall w hw]; rfl
          simp [hq, this]
  · -- some worker is not
    obtain ⟨w, hx⟩ := Classical.not_forall.1 hall
    obtain ⟨hw, hne⟩ := Classical.not_imp.1 hx
    obtain ⟨i, hiw⟩ := List.getElem?_of_mem hw
    cases w with
    | idle => exact absurd rfl hne
    | sending => exact worker_moves (c := .go) hiw (by simp [workerStep])
    | loading n => exact worker_moves (c := .go) hiw (by cases n <;> simp [workerStep])
    | job files ph =>
      cases files with
      | nil => exact worker_moves (c := .go) hiw (by simp [workerStep])
      | cons f files =>
        cases ph with
        | locked => exact worker_moves (c := .go) hiw (by simp [workerStep])
        | busy q n => exact worker_moves (c := .go) hiw (by cases n <;> simp [workerStep])
        | ask q =>
          refine worker_moves (c := .go) hiw ?_
          simp only [workerStep]
          split
          · simp
          · split
            · simp
            · split <;> simp
        | blocked q =>
          by_cases hc : s.claimed (f, q) = true
          · exact claimed_moves hc
          · refine worker_moves (c := .go) hiw ?_
            simp only [workerStep, hc]
            split
            · rename_i hh; cases hh
            · split <;> simp
        | line =>
          by_cases hwr : s.writing = true
          · -- the main thread is about to release the lock
            have hf := hi.fine
            rw [hwr] at hf
            refine ⟨.main, rfl, ?_⟩
            show mainStep s ≠ none
            cases hm : s.main with
            | nil => rw [hm] at hf; cases hr : s.reading <;> simp [hr, fine] at hf
            | cons o rest =>
              rw [hm] at hf
              obtain ⟨-, -, f3, -⟩ := fine_cons hf
              cases o with
              | unlockWrite => simp [mainStep, hm]
              | unlockRead => simp [mainStep, hm]
              | _ => exact absurd (f3 (by simp) (by simp)).1 (by simp)
          · by_cases hpk : s.parked = true
            · by_cases hr : s.readers = true
              · exact locked_moves hr
              · obtain ⟨rest, hm⟩ := hi.parked hpk
                have hf := hi.fine; rw [hm] at hf
                obtain ⟨-, -, f3, -⟩ := fine_cons hf
                obtain ⟨fw, fr⟩ := f3 (by decide) (by decide)
                exact ⟨.main, rfl, by simp [step, mainStep, hm, fw, fr, hr]⟩
            · exact worker_moves (c := .go) hiw (by simp [workerStep, hwr, hpk])

/-! ### Termination -/

/-- Work on a file. -/
def fileWork (cost : Nat → Query → Nat) (f : Nat) : Nat := cost f .lineIndex + cost f .parse + 8

def filesWork (cost : Nat → Query → Nat) (files : List Nat) : Nat := (files.map (fileWork cost)).sum

def phaseWork (cost : Nat → Query → Nat) (f : Nat) : Phase → Nat
  | .line => fileWork cost f
  | .locked => cost f .lineIndex + cost f .parse + 7
  | .ask .lineIndex => cost f .lineIndex + cost f .parse + 6
  | .blocked .lineIndex => cost f .lineIndex + cost f .parse + 5
  | .busy .lineIndex n => n + cost f .parse + 5
  | .ask .parse => cost f .parse + 4
  | .blocked .parse => cost f .parse + 3
  | .busy .parse n => n + 2

def workerWork (cost : Nat → Query → Nat) : Worker → Nat
  | .idle => 0
  | .sending => 1
  | .loading n => n + 1
  | .job [] _ => 2
  | .job (f :: files) ph => 2 + phaseWork cost f ph + filesWork cost files

def jobWork (cost : Nat → Query → Nat) : Job → Nat
  | .diagnostics files => 3 + filesWork cost files
  | .load n => n + 2

def opWork (cost : Nat → Query → Nat) : Op → Nat
  | .spawn j => 1 + jobWork cost j
  | .lockWrite => 2
  | _ => 1

/-- An upper bound for the number of steps that are left. -/
def workLeft (cost : Nat → Query → Nat) (s : State) : Nat :=
  (s.main.map (opWork cost)).sum + (if s.parked then 0 else 1) + (s.queue.map (jobWork cost)).sum +
    (s.workers.map (workerWork cost)).sum

theorem sum_set {α : Type} (m : α → Nat) (l : List α) (i : Nat) (a b : α) (h : l[i]? = some a) :
    ((l.set i b).map m).sum + m a = (l.map m).sum + m b := by
  induction l generalizing i with
  | nil => cases h
  | cons x l ih =>
    cases i with
    | zero =>
      simp only [List.getElem?_cons_zero, Option.some.injEq] at h
      subst h
      simp only [List.set_cons_zero, List.map_cons, List.sum_cons]
      omega
    | succ i =>
      have := ih i (by simpa using h)
      simp only [List.set_cons_succ, List.map_cons, List.sum_cons]
      omega

theorem job_line (cost : Nat → Query → Nat) (files : List Nat) :
    workerWork cost (.job files .line) = 2 + filesWork cost files := by
  cases files with
  | nil => rfl
  | cons f files => simp only [workerWork, phaseWork, filesWork, List.map_cons, List.sum_cons]; omega

/-- A step of a worker brings it, and with it the queue, nearer to the end. -/
theorem workerStep_work {s t : State} {w w' : Worker} {c : Choice} (h : workerStep cost s w c = some (w', t)) :
    workerWork cost w' + (t.queue.map (jobWork cost)).sum < workerWork cost w + (s.queue.map (jobWork cost)).sum := by
  have hafter : ∀ f files q, workerWork cost (after f files q) <
      workerWork cost (.job (f :: files) (.busy q 0)) ∧
      workerWork cost (after f files q) < workerWork cost (.job (f :: files) (.blocked q)) ∧
      workerWork cost (after f files q) < workerWork cost (.job (f :: files) (.ask q)) := by
    intro f files q
    cases q
    · simp only [after, workerWork, phaseWork]; omega
    · simp only [after, job_line]; simp only [workerWork, phaseWork]; omega
  have hskip : ∀ f files ph, workerWork cost (.job files .line) < workerWork cost (.job (f :: files) ph) := by
    intro f files ph
    rw [job_line]
    cases ph with
    | line => simp only [workerWork, phaseWork, fileWork]; omega
    | locked => simp only [workerWork, phaseWork]; omega
    | ask q => cases q <;> simp only [workerWork, phaseWork] <;> omega
    | blocked q => cases q <;> simp only [workerWork, phaseWork] <;> omega
    | busy q n => cases q <;> simp only [workerWork, phaseWork] <;> omega
  cases c with
  | go =>
    cases w with
    | idle =>
      unfold workerStep at h
      cases hq : s.queue with
      | nil => simp [hq] at h
      | cons j rest =>
        simp only [hq, Option.some.injEq, Prod.mk.injEq] at h
        obtain ⟨rfl, rfl⟩ := h
        cases j with
        | diagnostics files =>
          have e := job_line cost files
          simp only [Job.start, e, List.map_cons, List.sum_cons, jobWork]
          simp only [workerWork]; omega
        | load n => simp only [Job.start, List.map_cons, List.sum_cons, jobWork, workerWork]; omega
    | sending =>
      simp only [workerStep, Option.some.injEq, Prod.mk.injEq] at h
      obtain ⟨rfl, rfl⟩ := h
      simp only [workerWork]; omega
    | loading n =>
      cases n <;> simp only [workerStep, Option.some.injEq, Prod.mk.injEq] at h <;> obtain ⟨rfl, rfl⟩ := h <;>
        simp only [workerWork] <;> omega
    | job files ph =>
      cases files with
      | nil =>
        simp only [workerStep, Option.some.injEq, Prod.mk.injEq] at h
        obtain ⟨rfl, rfl⟩ := h
        simp only [workerWork]; omega
      | cons f files =>
        cases ph with
        | line =>
          simp only [workerStep] at h
          split at h
          · cases h
          · cases h
            simp only [workerWork, phaseWork, fileWork]; omega
        | locked =>
          cases h
          simp only [workerWork, phaseWork]; omega
        | ask q =>
          simp only [workerStep] at h
          split at h
          · cases h
            have := hskip f files (.ask q); omega
          · split at h
            · cases h
              have := hafter f files q; omega
            · split at h <;> cases h <;> cases q <;> simp only [workerWork, phaseWork] <;> omega
        | blocked q =>
          simp only [workerStep] at h
          split at h
          · cases h
          · split at h
            · cases h
              have := hafter f files q; omega
            · cases h
              have := hskip f files (.blocked q); omega
        | busy q n =>
          cases n with
          | zero =>
            cases h
            have := hafter f files q
            simp only
            omega
          | succ n =>
            cases h
            cases q <;> simp only [workerWork, phaseWork] <;> omega
  | cancelled =>
    unfold workerStep at h
    dsimp only at h
    split at h
    · rename_i f files q n
      split at h
      · cases h
        have := hskip f files (.busy q n); omega
      · cases h
    · cases h
  | panic =>
    unfold workerStep at h
    dsimp only at h
    split at h <;> cases h <;> simp only [workerWork] <;> omega

theorem main_work {s t : State} (h : mainStep s = some t) : workLeft cost t < workLeft cost s := by
  unfold mainStep at h
  split at h
  · cases h
  · rename_i rest hm
    split at h
    · cases h
    · split at h
      · split at h
        · cases h
        · rename_i hp
          cases h
          simp [workLeft, hp]
      · cases h
        simp only [workLeft, hm, List.map_cons, List.sum_cons, opWork]
        split <;> simp <;> omega
  all_goals rename_i rest hm
  · cases h
    simp only [workLeft, hm, List.map_cons, List.sum_cons, opWork]; omega
  · split at h
    · cases h
    · cases h
      simp only [workLeft, hm, List.map_cons, List.sum_cons, opWork]; omega
  · cases h
    simp only [workLeft, hm, List.map_cons, List.sum_cons, opWork]; omega
  · cases h
    simp only [workLeft, hm, List.map_cons, List.sum_cons, opWork]; omega
  · split at h
    · cases h
    · cases h
      simp only [workLeft, hm, List.map_cons, List.sum_cons, opWork]; omega
  · cases h
    simp only [workLeft, hm, List.map_cons, List.sum_cons, opWork, List.map_append, List.sum_append, List.map_nil,
      List.sum_nil]
    omega
  · split at h
    · cases h
      simp only [workLeft, hm, List.map_cons, List.sum_cons, opWork]; omega
    · cases h

theorem step_work {s t : State} {l : Label} (hl : internal l = true) (h : step cost s l = some t) :
    workLeft cost t < workLeft cost s := by
  cases l with
  | event => cases hl
  | stop => cases hl
  | main => exact main_work h
  | worker i c =>
    unfold step at h
    dsimp only at h
    split at h
    · cases h
    · rename_i w hw
      split at h
      · cases h
      · rename_i w' u hu
        simp only [Option.some.injEq] at h
        subst h
        obtain ⟨h1, -, -, h4, -, h6, -⟩ := workerStep_state hu
        have h2 := workerStep_work hu
        have h3 := sum_set (workerWork cost) s.workers i w w' hw
        simp only [workLeft, h1, h4, h6]
        omega

theorem steps_work {s t : State} {ls : List Label} (h : Steps cost s ls t) :
    (∀ l, l ∈ ls → internal l = true) → ls.length + workLeft cost t ≤ workLeft cost s := by
  induction h with
  | nil => intro _; simp
  | cons h _ ih =>
    intro hl
    have h1 := step_work (hl _ List.mem_cons_self) h
    have h2 := ih fun l hm => hl l (List.mem_cons_of_mem _ hm)
    simp only [List.length_cons]
    omega

/-! ### C88 -/

/-- Whatever the threads have done so far and in whatever order they go on, the event under way is finished and all work
given to the pool is done after a bounded number of steps, and there is no state before that in which every thread
waits. -/
theorem handling_ends (cost : Nat → Query → Nat) (workers work : Nat) (hw : 0 < workers) {ls : List Label} {s : State}
    (hs : Steps cost (start workers work) ls s) :
    ∃ n, ∀ ls' t, Steps cost s ls' t → (∀ l, l ∈ ls' → internal l = true) →
      ls'.length ≤ n ∧ (Quiet t ∨ ∃ l, internal l = true ∧ step cost t l ≠ none) := by
  have hi := inv_steps hs (inv_start workers work hw)
  refine ⟨workLeft cost s, fun ls' t ht hl => ⟨?_, ?_⟩⟩
  · have := steps_work ht hl
    omega
  · by_cases hq : Quiet t
    · exact Or.inl hq
    · exact Or.inr (never_stuck (inv_steps ht hi) hq)

/-- A quiet server takes the next event, unless it has been stopped. -/
theorem quiet_takes_events {s : State} (h : Quiet s) (hr : s.receiver = true) (e : Bool) (c : Option Nat)
    (d : Option (List Nat)) (n : Nat) : step cost s (.event e c d n) = some { s with main := turn e c d n } := by
  simp [step, h.main, hr]

/-! ### C89 -/

/-- The main thread never changes the file store while a worker reads it. -/
theorem writer_alone (workers work : Nat) (hw : 0 < workers) {ls : List Label} {s : State}
    (hs : Steps cost (start workers work) ls s) (h : s.writing = true) (w : Worker) (hm : w ∈ s.workers) :
    w.reads = false := by
  have hi := inv_steps hs (inv_start workers work hw)
  cases hr : w.reads with
  | false => rfl
  | true =>
    have := hi.apart h
    have h2 : s.readers = true := List.any_eq_true.2 ⟨w, hm, hr⟩
    rw [this] at h2; cases h2

/-- No worker ever sends its result to a main loop that is gone. -/
theorem no_result_lost (workers work : Nat) (hw : 0 < workers) {ls : List Label} {s : State}
    (hs : Steps cost (start workers work) ls s) : s.lost = false :=
  (inv_steps hs (inv_start workers work hw)).lost

/-- Once the server has ended, no worker is at work. -/
theorem ended_quiet (workers work : Nat) (hw : 0 < workers) {ls : List Label} {s : State}
    (hs : Steps cost (start workers work) ls s) (h : s.receiver = false) : Quiet s :=
  (inv_steps hs (inv_start workers work hw)).ended h

/-- Between events, no query is being cancelled: a worker that computes diagnostics then computes them to the end. -/
theorem only_changes_cancel (workers work : Nat) (hw : 0 < workers) {ls : List Label} {s : State}
    (hs : Steps cost (start workers work) ls s) (h : s.main = []) : s.cancelling = false := by
  have hi := inv_steps hs (inv_start workers work hw)
  cases hc : s.cancelling with
  | false => rfl
  | true => rcases hi.cancelling hc with ⟨r, e⟩ | e <;> rw [h] at e <;> cases e

/-! ### Witnesses -/

/-- Run the model. -/
def run (cost : Nat → Query → Nat) (s : State) : List Label → Option State
  | [] => some s
  | l :: ls => (step cost s l).bind fun t => run cost t ls

theorem steps_run {ls : List Label} : ∀ {s t : State}, run cost s ls = some t → Steps cost s ls t := by
  induction ls with
  | nil => intro s t h; cases h; exact .nil s
  | cons l ls ih =>
    intro s t h
    rw [run] at h
    cases hs : step cost s l with
    | none => rw [hs] at h; cases h
    | some u => rw [hs] at h; exact .cons hs (ih h)

theorem reached {s : State} {ls : List Label} {p : State → Bool} (h : (run cost s ls).any p = true) :
    ∃ t, Steps cost s ls t ∧ p t = true := by
  cases hr : run cost s ls with
  | none => rw [hr] at h; cases h
  | some t => rw [hr] at h; exact ⟨t, steps_run hr, h⟩

/-- Two workers, two documents; the second edit arrives while one worker is computing and another reads the file
store. -/
def busyRun : List Label :=
  [.main, .worker 0 .go, .event true (some 1) (some [7, 8]) 0] ++ List.replicate 13 .main ++
  [.worker 1 .go, .worker 1 .go, .worker 1 .go, .worker 1 .go,
    .event false none (some [7, 8]) 0] ++ List.replicate 7 .main ++
  [.worker 0 .panic, .worker 0 .go, .worker 0 .go, .event true (some 1) none 0, .main]

/-- In that state the main thread waits for a reader, while the other worker computes. -/
example : ∃ s, Steps (fun _ _ => 3) (start 2 5) busyRun s ∧
    (s.parked && s.readers && (step (fun _ _ => 3) s .main).isNone && s.claimed (7, .lineIndex)) = true :=
  reached (by decide +kernel)

/-- It becomes quiet: the reader leaves, the main thread enters, cancels and waits, the workers give up. -/
example : ∃ s, Steps (fun _ _ => 3) (start 2 5) (busyRun ++
    [.worker 0 .go, .main, .main, .main, .main, .main, .worker 0 .go, .worker 0 .go, .worker 0 .go, .worker 0 .go,
      .worker 0 .go, .worker 1 .cancelled, .worker 1 .go, .worker 1 .go, .worker 1 .go, .worker 1 .go, .main, .main, .main,
      .worker 0 .go, .worker 1 .go]) s ∧
    (s.main == [] && s.queue == [] && s.workers == [.idle, .idle] && s.receiver) = true :=
  reached (by decide +kernel)

/-- The main loop panics while a worker computes; the worker is waited for. -/
example : ∃ s, Steps (fun _ _ => 1) (start 1 0)
    [.main, .worker 0 .go, .worker 0 .go, .event false none (some [7]) 0, .main, .main, .main, .main, .main, .worker 0 .go,
      .worker 0 .go, .worker 0 .go, .worker 0 .go, .event true none none 0, .main, .stop, .main, .worker 0 .cancelled,
      .worker 0 .go, .main, .worker 0 .go, .main] s ∧ (!s.receiver && !s.lost) = true :=
  reached (by decide +kernel)

end Verif.Server.Threads
