import Verif.Parser.Token
import Verif.Parser.Language

set_option autoImplicit false

/-!
Symbolic execution of grammar functions on the machine on tokens: `WP p s Q` says that `p`, started
in `s`, returns, and that `Q` holds of the result and the final state.
-/

namespace Verif.Parser

open Language

def WP {α : Type} (p : Prog α) (s : TState) (Q : α → TState → Prop) : Prop :=
  ∃ a s', Runs p s a s' ∧ Q a s'

theorem Runs.of_exec {α : Type} {p q : Prog α} {s t s' : TState} {a : α} (h : exec p s = exec q t)
    (r : Runs q t a s') : Runs p s a s' := by
  cases r with
  | done h' => exact .done (h.trans h')
  | call h' r1 r2 => exact .call (h.trans h') r1 r2

theorem WP.of_exec {α : Type} {p q : Prog α} {s t : TState} {Q : α → TState → Prop}
    (h : exec p s = exec q t) : WP p s Q = WP q t Q := by
  refine propext ⟨?_, ?_⟩
  · rintro ⟨a, s', r, hq⟩
    exact ⟨a, s', r.of_exec h.symm, hq⟩
  · rintro ⟨a, s', r, hq⟩
    exact ⟨a, s', r.of_exec h, hq⟩

theorem WP.bind {α β : Type} {p : Prog α} {k : α → Prog β} {s : TState} {Q : β → TState → Prop}
    (h : WP p s fun a s1 => WP (k a) s1 Q) : WP (p >>= k) s Q := by
  obtain ⟨a, s1, r1, b, s', r2, hq⟩ := h
  exact ⟨b, s', r1.bind r2, hq⟩

theorem WP.call {β : Type} {f : Fn} {k : f.Res → Prog β} {s : TState} {Q : β → TState → Prop}
    (h : WP (body f) s fun a s1 => WP (k a) s1 Q) : WP (Parser.call f >>= k) s Q := by
  obtain ⟨a, s1, r1, b, s', r2, hq⟩ := h
  exact ⟨b, s', .call (f := f) (k := k) rfl r1 r2, hq⟩

theorem WP.last {f : Fn} {s : TState} {Q : f.Res → TState → Prop}
    (h : WP (body f) s Q) : WP (Parser.call f) s Q := by
  obtain ⟨a, s1, r1, hq⟩ := h
  exact ⟨a, s1, .call (f := f) (k := .pure) rfl r1 (.done rfl), hq⟩

theorem bind_assoc_prog {α β γ : Type} (p : Prog α) (f : α → Prog β) (g : β → Prog γ) :
    (p >>= f) >>= g = p >>= fun x => f x >>= g := by
  show (p.bind f).bind g = p.bind fun x => (f x).bind g
  induction p with
  | pure a => rfl
  | panic w => rfl
  | current k ih => simp only [Prog.bind, ih]
  | currentText k ih => simp only [Prog.bind, ih]
  | nth n k ih => simp only [Prog.bind, ih]
  | doBump kind k ih => simp only [Prog.bind, ih]
  | start k ih => simp only [Prog.bind, ih]
  | complete m kind k ih => simp only [Prog.bind, ih]
  | abandon m k ih => simp only [Prog.bind, ih]
  | precede c' k ih => simp only [Prog.bind, ih]
  | error msg k ih => simp only [Prog.bind, ih]
  | call f k ih => simp only [Prog.bind, ih]

theorem pure_bind_prog {α β : Type} (a : α) (f : α → Prog β) : (pure a : Prog α) >>= f = f a := rfl

theorem bind_pure_prog {α : Type} (p : Prog α) : (p >>= fun a => pure a) = p := by
  show p.bind .pure = p
  induction p with
  | pure a => rfl
  | panic w => rfl
  | current k ih => simp only [Prog.bind, ih]
  | currentText k ih => simp only [Prog.bind, ih]
  | nth n k ih => simp only [Prog.bind, ih]
  | doBump kind k ih => simp only [Prog.bind, ih]
  | start k ih => simp only [Prog.bind, ih]
  | complete m kind k ih => simp only [Prog.bind, ih]
  | abandon m k ih => simp only [Prog.bind, ih]
  | precede c' k ih => simp only [Prog.bind, ih]
  | error msg k ih => simp only [Prog.bind, ih]
  | call f k ih => simp only [Prog.bind, ih]

/-! Not proved by `rfl`, since `simp` cannot use definitional unfolding in side conditions. -/

theorem kind0_cons (k : Kind) (t : Text) (l1 l2 : Kind) (w : List Tok) :
    kind0 (⟨k, t, l1, l2⟩ :: w) = k := congrArg (fun x : Kind => x) rfl
theorem kind0_nil : kind0 [] = .EOF := congrArg (fun x : Kind => x) rfl
theorem kind1_cons (k : Kind) (t : Text) (l1 l2 : Kind) (w : List Tok) :
    kind1 (⟨k, t, l1, l2⟩ :: w) = l1 := congrArg (fun x : Kind => x) rfl
theorem kind2_cons (k : Kind) (t : Text) (l1 l2 : Kind) (w : List Tok) :
    kind2 (⟨k, t, l1, l2⟩ :: w) = l2 := congrArg (fun x : Kind => x) rfl

theorem kind_beq_ne {a b : Kind} (h : a ≠ b) : (a == b) = false := by simpa using h

section
variable {α : Type} {w : List Tok} {u n : Nat} {i pre j k0 : Forest} {o : List (Forest × Forest)}
  {Q : α → TState → Prop} {k : Kind} {t : Text} {l1 l2 : Kind}

theorem wp_pure (a : α) (s : TState) : WP (pure a) s Q = Q a s := by
  refine propext ⟨?_, fun h => ⟨a, s, .done rfl, h⟩⟩
  rintro ⟨b, s', r, h⟩
  cases r with
  | done he => cases he; exact h
  | call he => cases he

theorem wp_at (f : Bool → Prog α) :
    WP (at_ k >>= f) ⟨w, u, n, i, o⟩ Q = WP (f (kind0 w == k)) ⟨w, u + 1, n, i, o⟩ Q :=
  WP.of_exec rfl

theorem wp_nthAt1 (f : Bool → Prog α) :
    WP (nthAt 1 k >>= f) ⟨w, u, n, i, o⟩ Q = WP (f (kind1 w == k)) ⟨w, u + 1, n, i, o⟩ Q :=
  WP.of_exec rfl

theorem wp_nth0 (f : Kind → Prog α) :
    WP (nth 0 >>= f) ⟨w, u, n, i, o⟩ Q = WP (f (kind0 w)) ⟨w, u + 1, n, i, o⟩ Q :=
  WP.of_exec rfl

theorem wp_nth1 (f : Kind → Prog α) :
    WP (nth 1 >>= f) ⟨w, u, n, i, o⟩ Q = WP (f (kind1 w)) ⟨w, u + 1, n, i, o⟩ Q :=
  WP.of_exec rfl

theorem wp_nth2 (f : Kind → Prog α) :
    WP (nth 2 >>= f) ⟨w, u, n, i, o⟩ Q = WP (f (kind2 w)) ⟨w, u + 1, n, i, o⟩ Q :=
  WP.of_exec rfl

theorem wp_current (f : Kind → Prog α) :
    WP (current >>= f) ⟨w, u, n, i, o⟩ Q = WP (f (kind0 w)) ⟨w, u, n, i, o⟩ Q :=
  WP.of_exec rfl

theorem wp_currentText (f : Text → Prog α) :
    WP (currentText >>= f) ⟨w, u, n, i, o⟩ Q = WP (f (text0 w)) ⟨w, u, n, i, o⟩ Q :=
  WP.of_exec rfl

theorem wp_doBump (f : Unit → Prog α) :
    WP (doBump k >>= f) ⟨w, u, n, i, o⟩ Q = WP (f ()) ⟨w.tail, u, n + 1, .tok i k, o⟩ Q :=
  WP.of_exec rfl

theorem wp_doBump' {Q : Unit → TState → Prop} :
    WP (doBump k) ⟨w, u, n, i, o⟩ Q = Q () ⟨w.tail, u, n + 1, .tok i k, o⟩ := by
  rw [show doBump k = (doBump k >>= fun _ => pure ()) from rfl, wp_doBump, wp_pure]

theorem wp_start (f : Marker → Prog α) :
    WP (start >>= f) ⟨w, u, n, i, o⟩ Q = WP (f ⟨n⟩) ⟨w, u, n + 1, .nil, (.nil, i) :: o⟩ Q :=
  WP.of_exec rfl

theorem wp_complete (m : Marker) (f : Completed → Prog α) :
    WP (m.complete k >>= f) ⟨w, u, n, i, (pre, j) :: o⟩ Q =
      WP (f ⟨m.pos, n, k⟩) ⟨w, u, n + 1, .node j k pre i, o⟩ Q :=
  WP.of_exec rfl

theorem wp_complete' (m : Marker) {Q : Completed → TState → Prop} :
    WP (m.complete k) ⟨w, u, n, i, (pre, j) :: o⟩ Q =
      Q ⟨m.pos, n, k⟩ ⟨w, u, n + 1, .node j k pre i, o⟩ := by
  rw [show m.complete k = (m.complete k >>= fun c => pure c) from rfl, wp_complete, wp_pure]

theorem wp_precede (c : Completed) (f : Marker → Prog α) :
    WP (c.precede >>= f) ⟨w, u, n, .node j k pre i, o⟩ Q =
      WP (f ⟨n⟩) ⟨w, u, n + 1, .nil, (.node .nil k pre i, j) :: o⟩ Q :=
  WP.of_exec rfl

theorem wp_assert (msg : String) (f : Unit → Prog α) (s : TState) :
    WP (assert true msg >>= f) s Q = WP (f ()) s Q := rfl

theorem wp_eat_yes (f : Bool → Prog α) (h : kind0 w = k) :
    WP (eat k >>= f) ⟨w, u, n, i, o⟩ Q = WP (f true) ⟨w.tail, u + 1, n + 1, .tok i k, o⟩ Q := by
  have : (kind0 w == k) = true := by simpa using h
  simp only [eat, bind_assoc_prog, wp_at, this, Bool.not_true, Bool.false_eq_true, if_false, wp_doBump,
    pure_bind_prog]

theorem wp_eat_no (f : Bool → Prog α) (h : kind0 w ≠ k) :
    WP (eat k >>= f) ⟨w, u, n, i, o⟩ Q = WP (f false) ⟨w, u + 1, n, i, o⟩ Q := by
  have : (kind0 w == k) = false := by simpa using h
  simp only [eat, bind_assoc_prog, wp_at, this, Bool.not_false, if_true, pure_bind_prog]

theorem wp_expect (f : Bool → Prog α) (h : kind0 w = k) :
    WP (expect k >>= f) ⟨w, u, n, i, o⟩ Q = WP (f true) ⟨w.tail, u + 1, n + 1, .tok i k, o⟩ Q := by
  simp only [expect, bind_assoc_prog, wp_eat_yes _ h, if_true, pure_bind_prog]

theorem wp_bump (f : Unit → Prog α) (h : kind0 w = k) :
    WP (bump k >>= f) ⟨w, u, n, i, o⟩ Q = WP (f ()) ⟨w.tail, u + 1, n + 1, .tok i k, o⟩ Q := by
  simp only [bump, bind_assoc_prog, wp_eat_yes _ h, wp_assert]

theorem wp_bump' {Q : Unit → TState → Prop} (h : kind0 w = k) :
    WP (bump k) ⟨w, u, n, i, o⟩ Q = Q () ⟨w.tail, u + 1, n + 1, .tok i k, o⟩ := by
  rw [← bind_pure_prog (bump k), wp_bump _ h, wp_pure]

theorem wp_bumpAny (f : Unit → Prog α) (h : kind0 w ≠ .EOF) :
    WP (bumpAny >>= f) ⟨w, u, n, i, o⟩ Q =
      WP (f ()) ⟨w.tail, u, n + 1, .tok i (kind0 w), o⟩ Q := by
  have : (kind0 w == Kind.EOF) = false := by simpa using h
  simp only [bumpAny, bind_assoc_prog, wp_current, this, Bool.false_eq_true, if_false, wp_doBump]

theorem wp_bumpRemap (f : Unit → Prog α) (h : kind0 w ≠ .EOF) :
    WP (bumpRemap k >>= f) ⟨w, u, n, i, o⟩ Q =
      WP (f ()) ⟨w.tail, u + 1, n + 1, .tok i k, o⟩ Q := by
  have : (kind0 w == Kind.EOF) = false := by simpa using h
  simp only [bumpRemap, bind_assoc_prog, wp_nth0, this, Bool.false_eq_true, if_false, wp_doBump]

theorem wp_neither_in (a b : Kind) (f : Bool → Prog α) (h1 : kind0 w ≠ a) (h2 : kind0 w ≠ b) :
    WP (neither a b >>= f) ⟨w, u, n, i, o⟩ Q = WP (f true) ⟨w, u + 2, n, i, o⟩ Q := by
  have h1' : (kind0 w == a) = false := by simpa using h1
  have h2' : (kind0 w == b) = false := by simpa using h2
  simp only [neither, bind_assoc_prog, wp_at, h1', h2', Bool.false_eq_true, if_false, Bool.not_false,
    pure_bind_prog]

theorem wp_neither_1 (a b : Kind) (f : Bool → Prog α) (h1 : kind0 w = a) :
    WP (neither a b >>= f) ⟨w, u, n, i, o⟩ Q = WP (f false) ⟨w, u + 1, n, i, o⟩ Q := by
  have h1' : (kind0 w == a) = true := by simpa using h1
  simp only [neither, bind_assoc_prog, wp_at, h1', if_true, pure_bind_prog]

theorem wp_neither_2 (a b : Kind) (f : Bool → Prog α) (h1 : kind0 w ≠ a) (h2 : kind0 w = b) :
    WP (neither a b >>= f) ⟨w, u, n, i, o⟩ Q = WP (f false) ⟨w, u + 2, n, i, o⟩ Q := by
  have h1' : (kind0 w == a) = false := by simpa using h1
  have h2' : (kind0 w == b) = true := by simpa using h2
  simp only [neither, bind_assoc_prog, wp_at, h1', h2', Bool.false_eq_true, if_false, Bool.not_true,
    pure_bind_prog]

theorem wp_atTs (ts : TokenSet) (f : Bool → Prog α) :
    WP (atTs ts >>= f) ⟨w, u, n, i, o⟩ Q = WP (f (ts.contains (kind0 w))) ⟨w, u, n, i, o⟩ Q :=
  WP.of_exec rfl

theorem wp_isPathStart (f : Bool → Prog α) :
    WP (isPathStart >>= f) ⟨w, u, n, i, o⟩ Q = WP (f (kind0 w == .IDENT)) ⟨w, u, n, i, o⟩ Q :=
  WP.of_exec rfl

/-! One-token functions. -/

theorem wp_nameR (ts : TokenSet) (f : Unit → Prog α) :
    WP (nameR ts >>= f) ⟨⟨.IDENT, t, l1, l2⟩ :: w, u, n, i, o⟩ Q =
      WP (f ()) ⟨w, u + 2, n + 3, .node i .NAME .nil (.tok .nil .IDENT), o⟩ Q :=
  WP.of_exec rfl

theorem wp_name (f : Unit → Prog α) :
    WP (name >>= f) ⟨⟨.IDENT, t, l1, l2⟩ :: w, u, n, i, o⟩ Q =
      WP (f ()) ⟨w, u + 2, n + 3, .node i .NAME .nil (.tok .nil .IDENT), o⟩ Q :=
  WP.of_exec rfl

theorem wp_nameRef (f : Unit → Prog α) :
    WP (nameRef >>= f) ⟨⟨.IDENT, t, l1, l2⟩ :: w, u, n, i, o⟩ Q =
      WP (f ()) ⟨w, u + 2, n + 3, .node i .NAME_REF .nil (.tok .nil .IDENT), o⟩ Q :=
  WP.of_exec rfl

theorem wp_pathSegment_true (f : Unit → Prog α) :
    WP (pathSegment true >>= f) ⟨⟨.IDENT, t, l1, l2⟩ :: w, u, n, i, o⟩ Q =
      WP (f ()) ⟨w, u + 3, n + 5,
        .node i .PATH_SEGMENT .nil (.node .nil .NAME_REF .nil (.tok .nil .IDENT)), o⟩ Q :=
  WP.of_exec rfl

theorem wp_pathSegment_false (f : Unit → Prog α) :
    WP (pathSegment false >>= f) ⟨⟨.IDENT, t, l1, l2⟩ :: w, u, n, i, o⟩ Q =
      WP (f ()) ⟨w, u + 2, n + 5,
        .node i .PATH_SEGMENT .nil (.node .nil .NAME_REF .nil (.tok .nil .IDENT)), o⟩ Q :=
  WP.of_exec rfl

theorem wp_bumpAddress_ident (f : Bool → Prog α) :
    WP (bumpAddress >>= f) ⟨⟨.IDENT, t, l1, l2⟩ :: w, u, n, i, o⟩ Q =
      WP (f true) ⟨w, u + 1, n + 1, .tok i .IDENT, o⟩ Q :=
  WP.of_exec rfl

theorem wp_bumpAddress_hex (f : Bool → Prog α) :
    WP (bumpAddress >>= f) ⟨⟨.INTEGER_NUMBER, '0' :: 'x' :: t, l1, l2⟩ :: w, u, n, i, o⟩ Q =
      WP (f true) ⟨w, u + 1, n + 1, .tok i .DIEM_ADDRESS, o⟩ Q :=
  WP.of_exec rfl

end

/-- Rewrites a goal `WP p s Q` along the program as far as the tokens are known. -/
macro "steps" "[" ts:Lean.Parser.Tactic.simpLemma,* "]" : tactic =>
  `(tactic| simp only [bind_assoc_prog, pure_bind_prog, wp_pure, wp_at, wp_nthAt1, wp_nth0, wp_nth1,
    wp_nth2, wp_current, wp_currentText, wp_doBump, wp_doBump', wp_start, wp_complete, wp_complete',
    wp_precede, wp_assert, wp_eat_yes, wp_eat_no, wp_expect, wp_bump, wp_bump', wp_bumpAny,
    wp_bumpRemap, wp_neither_in, wp_neither_1, wp_neither_2, wp_atTs, wp_isPathStart, wp_nameR, wp_name,
    wp_nameRef, wp_pathSegment_true, wp_pathSegment_false, wp_bumpAddress_ident, wp_bumpAddress_hex,
    kind0_cons, kind0_nil, kind1_cons, kind2_cons, List.tail_cons, List.cons_append, List.nil_append, List.append_assoc, List.append_nil,
    beq_self_eq_true, kind_beq_ne, reduceCtorEq, not_false_eq_true, ne_eq, Bool.not_true,
    Bool.not_false, Bool.false_eq_true, Bool.true_eq_false, if_true, if_false, ite_true, ite_false,
    Bool.or_true, Bool.true_or, Bool.or_false, Bool.false_or, Bool.and_true, Bool.true_and,
    Bool.and_false, Bool.false_and, $ts,*])

end Verif.Parser
