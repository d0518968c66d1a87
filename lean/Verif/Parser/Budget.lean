import Verif.Parser.HighLevel

set_option autoImplicit false

/-!
Counting the steps of a run: a machine with a budget, which every primitive operation and every
call of a grammar function decreases by one.  An exhausted budget stops the run with `outOfFuel`.
-/

namespace Verif.Parser

/-- Pay one unit for an operation. -/
def spend {S α : Type} (b : Nat) (o : Out S α) : Out (S × Nat) α :=
  match b with
  | 0 => .outOfFuel
  | b + 1 =>
    match o with
    | .ok a s => .ok a (s, b)
    | .panic w => .panic w
    | .outOfFuel => .outOfFuel

/-- The machine in which every operation but a look at the current token costs one unit. -/
def budgeted {S : Type} (M : Machine S) : Machine (S × Nat) where
  current s := M.current s.1
  currentText s := spend s.2 (M.currentText s.1)
  nth n s := spend s.2 (M.nth n s.1)
  doBump kind s := spend s.2 (M.doBump kind s.1)
  start s := spend s.2 (M.start s.1)
  complete m kind s := spend s.2 (M.complete m kind s.1)
  abandon m s := spend s.2 (M.abandon m s.1)
  precede c s := spend s.2 (M.precede c s.1)
  error msg s := spend s.2 (M.error msg s.1)

/-- Execution of the functions with calls nested at most `n` deep, every call costing one unit. -/
def callB {S : Type} (M : Machine S) (body : (f : Fn) → Prog f.Res) :
    Nat → (f : Fn) → S × Nat → Out (S × Nat) f.Res
  | 0, _, _ => .outOfFuel
  | n + 1, f, (s, b) =>
    match b with
    | 0 => .outOfFuel
    | b + 1 => run (budgeted M) (callB M body n) (body f) (s, b)

/-- Forget the budget. -/
def Out.erase {S α : Type} : Out (S × Nat) α → Out S α
  | .ok a s => .ok a s.1
  | .panic w => .panic w
  | .outOfFuel => .outOfFuel

/-- `o'` is what `o` is without the budget, unless the budget ran out. -/
def Erases {S α : Type} (o : Out (S × Nat) α) (o' : Out S α) : Prop :=
  o = .outOfFuel ∨ o' = o.erase

theorem Erases.bind {S α β : Type} {o : Out (S × Nat) α} {o' : Out S α}
    {f : α → S × Nat → Out (S × Nat) β} {g : α → S → Out S β} (h : Erases o o')
    (hf : ∀ a s, Erases (f a s) (g a s.1)) : Erases (o.bind f) (o'.bind g) := by
  rcases h with rfl | rfl
  · exact .inl rfl
  · cases o with
    | ok a s => exact hf a s
    | panic w => exact .inr rfl
    | outOfFuel => exact .inl rfl

theorem spend_erases {S α : Type} (b : Nat) (o : Out S α) : Erases (spend b o) o := by
  cases b with
  | zero => exact .inl rfl
  | succ b => cases o <;> exact .inr rfl

theorem run_erases {S α : Type} {M : Machine S} {cb : (f : Fn) → S × Nat → Out (S × Nat) f.Res}
    {c : (f : Fn) → S → Out S f.Res} (hc : ∀ f s, Erases (cb f s) (c f s.1)) (p : Prog α)
    (s : S × Nat) : Erases (run (budgeted M) cb p s) (run M c p s.1) := by
  induction p generalizing s with
  | pure a => exact .inr rfl
  | panic w => exact .inr rfl
  | current k ih => exact ih _ s
  | currentText k ih => exact (spend_erases ..).bind fun a s => ih a s
  | nth n k ih => exact (spend_erases ..).bind fun a s => ih a s
  | doBump kind k ih => exact (spend_erases ..).bind fun _ s => ih s
  | start k ih => exact (spend_erases ..).bind fun a s => ih a s
  | complete m kind k ih => exact (spend_erases ..).bind fun a s => ih a s
  | abandon m k ih => exact (spend_erases ..).bind fun _ s => ih s
  | precede c k ih => exact (spend_erases ..).bind fun a s => ih a s
  | error msg k ih => exact (spend_erases ..).bind fun _ s => ih s
  | call f k ih => exact (hc f s).bind fun a s => ih a s

/-- A run that stays within its budget has the outcome of the run without a budget, at any
greater nesting depth. -/
theorem callB_erases {S : Type} (M : Machine S) (body : (f : Fn) → Prog f.Res) (n m : Nat)
    (hm : n ≤ m) (f : Fn) (s : S × Nat) : Erases (callB M body n f s) (callN M body m f s.1) := by
  induction n generalizing m f s with
  | zero => exact .inl rfl
  | succ n ih =>
    cases m with
    | zero => omega
    | succ m =>
      obtain ⟨s, b⟩ := s
      cases b with
      | zero => exact .inl rfl
      | succ b => exact run_erases (fun f s => ih m (by omega) f s) (body f) (s, b)

/-- Budgets do not disturb the agreement of two machines. -/
theorem MachineAgree.budgeted {S T : Type} {R : S → T → Prop} {M : Machine S} {N : Machine T}
    (ag : MachineAgree R M N) :
    MachineAgree (fun (h : S × Nat) (l : T × Nat) => R h.1 l.1 ∧ h.2 = l.2)
      (Parser.budgeted M) (Parser.budgeted N) := by
  have key : ∀ {α : Type} {oh : Out S α} {ol : Out T α} (b : Nat), AgreeR R oh ol →
      AgreeR (fun (h : S × Nat) (l : T × Nat) => R h.1 l.1 ∧ h.2 = l.2) (spend b oh) (spend b ol) := by
    intro α oh ol b h
    cases b with
    | zero => rfl
    | succ b =>
      cases oh with
      | ok a s =>
        obtain ⟨l, rfl, hr⟩ := h
        exact ⟨(l, b), rfl, hr, rfl⟩
      | panic w => cases w <;> simp only [AgreeR] at h <;> first | trivial | (subst h; rfl)
      | outOfFuel => simp only [AgreeR] at h; subst h; rfl
  constructor
  · rintro ⟨h, b⟩ ⟨l, b'⟩ ⟨r, rfl⟩; exact ag.current h l r
  · rintro ⟨h, b⟩ ⟨l, b'⟩ ⟨r, rfl⟩; exact key b (ag.currentText h l r)
  · rintro n ⟨h, b⟩ ⟨l, b'⟩ ⟨r, rfl⟩; exact key b (ag.nth n h l r)
  · rintro k ⟨h, b⟩ ⟨l, b'⟩ ⟨r, rfl⟩; exact key b (ag.doBump k h l r)
  · rintro ⟨h, b⟩ ⟨l, b'⟩ ⟨r, rfl⟩; exact key b (ag.start h l r)
  · rintro m k ⟨h, b⟩ ⟨l, b'⟩ ⟨r, rfl⟩; exact key b (ag.complete m k h l r)
  · rintro m ⟨h, b⟩ ⟨l, b'⟩ ⟨r, rfl⟩; exact key b (ag.abandon m h l r)
  · rintro c ⟨h, b⟩ ⟨l, b'⟩ ⟨r, rfl⟩; exact key b (ag.precede c h l r)
  · rintro msg ⟨h, b⟩ ⟨l, b'⟩ ⟨r, rfl⟩; exact key b (ag.error msg h l r)

theorem callB_agree {S T : Type} {R : S → T → Prop} {M : Machine S} {N : Machine T}
    (ag : MachineAgree R M N) (body : (f : Fn) → Prog f.Res) (n : Nat) (f : Fn) (h : S × Nat)
    (l : T × Nat) (r : R h.1 l.1 ∧ h.2 = l.2) :
    AgreeR (fun (h : S × Nat) (l : T × Nat) => R h.1 l.1 ∧ h.2 = l.2)
      (callB M body n f h) (callB N body n f l) := by
  induction n generalizing f h l with
  | zero => rfl
  | succ n ih =>
    obtain ⟨h, b⟩ := h
    obtain ⟨l, b'⟩ := l
    obtain ⟨r, rfl⟩ := r
    cases b with
    | zero => rfl
    | succ b => exact ag.budgeted.run ih (body f) (h, b) (l, b) ⟨r, rfl⟩

end Verif.Parser
