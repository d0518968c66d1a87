set_option autoImplicit false

/-!
C48: `/repo/crates/stdx/src/panic_context.rs`, on one thread.
-/

namespace Verif.PanicContext

/-! Model. -/

/-- What can happen to the context stack of a thread. -/
inductive Step where
  /-- `enter(context)`, panic_context.rs:7-13 -/
  | enter (context : String)
  /-- the `drop` of a `PanicContext`, panic_context.rs:38-42 -/
  | drop
  /-- a panic runs the hook, panic_context.rs:23-33 -/
  | hook
  deriving DecidableEq, Repr

/-- The effect of a step on the stack of the thread, panic_context.rs:44-49, and the frames the hook
prints; `none` is the failed assertion in `drop`. -/
def step (ctx : List String) : Step → Option (List String × List (List String))
  | .enter context => some (ctx ++ [context], [])
  | .drop => if ctx = [] then none else some (ctx.dropLast, [])
  | .hook => some (ctx, [ctx])

def steps (ctx : List String) : List Step → Option (List String × List (List String))
  | [] => some (ctx, [])
  | s :: ss =>
    match step ctx s with
    | none => none
    | some (ctx, p) => (steps ctx ss).map fun (ctx, ps) => (ctx, p ++ ps)

/-! Specification: programs that keep each context in a block. -/

/-- A program, as far as contexts and panics are concerned. -/
inductive Code where
  /-- does not touch contexts and does not panic -/
  | other
  | seq (a b : Code)
  /-- `{ let _pctx = panic_context::enter(context); body }` -/
  | block (context : String) (body : Code)
  | panic
  /-- `catch_unwind` -/
  | catchPanic (body : Code)

/-- Whether the program ends with a panic. -/
def Code.panics : Code → Bool
  | .other => false
  | .seq a b => a.panics || b.panics
  | .block _ body => body.panics
  | .panic => true
  | .catchPanic _ => false

/-- The steps of a program: leaving a block drops its context, normally and when a panic unwinds. -/
def Code.trace : Code → List Step
  | .other => []
  | .seq a b => a.trace ++ (if a.panics then [] else b.trace)
  | .block context body => .enter context :: (body.trace ++ [.drop])
  | .panic => [.hook]
  | .catchPanic body => body.trace

/-- What a program does and what should be printed: in a run of the program with the contexts `around`, for every
panic that happens, the contexts of the blocks around it, from the outermost to the innermost; and whether
the run ends in a panic. -/
inductive Runs : List String → Code → List (List String) → Bool → Prop
  | other {around} : Runs around .other [] false
  | panic {around} : Runs around .panic [around] true
  | seqPanic {around a b r} : Runs around a r true → Runs around (.seq a b) r true
  | seq {around a b r r' p} : Runs around a r false → Runs around b r' p → Runs around (.seq a b) (r ++ r') p
  | block {around context body r p} : Runs (around ++ [context]) body r p → Runs around (.block context body) r p
  | caught {around body r p} : Runs around body r p → Runs around (.catchPanic body) r false

theorem steps_append (ctx : List String) (a b : List Step) :
    steps ctx (a ++ b) = match steps ctx a with
      | none => none
      | some (ctx', p) => (steps ctx' b).map fun (ctx'', ps) => (ctx'', p ++ ps) := by
  induction a generalizing ctx with
  | nil =>
    simp only [List.nil_append, steps]
    cases steps ctx b with
    | none => rfl
    | some x => simp
  | cons s a ih =>
    simp only [List.cons_append, steps]
    cases step ctx s with
    | none => rfl
    | some x =>
      obtain ⟨ctx1, p⟩ := x
      simp only [ih]
      cases steps ctx1 a with
      | none => rfl
      | some y =>
        obtain ⟨ctx2, p2⟩ := y
        simp only [Option.map_some]
        cases steps ctx2 b with
        | none => rfl
        | some z => simp

theorem runs_steps {ctx : List String} {code : Code} {r : List (List String)} {p : Bool} (h : Runs ctx code r p) :
    steps ctx code.trace = some (ctx, r) ∧ code.panics = p := by
  induction h with
  | other => exact ⟨rfl, rfl⟩
  | panic => exact ⟨rfl, rfl⟩
  | caught _ ih => exact ⟨ih.1, rfl⟩
  | seqPanic _ ih => simp [Code.trace, Code.panics, ih.1, ih.2]
  | seq _ _ ih1 ih2 => simp [Code.trace, Code.panics, steps_append, ih1.1, ih1.2, ih2.1, ih2.2]
  | block _ ih =>
    refine ⟨?_, ih.2⟩
    simp only [Code.trace, steps, step, steps_append, ih.1]
    simp

/-- Every program runs, with any contexts around it. -/
theorem runs_total (code : Code) : ∀ ctx : List String, ∃ r p, Runs ctx code r p := by
  induction code with
  | other => exact fun _ => ⟨_, _, .other⟩
  | panic => exact fun _ => ⟨_, _, .panic⟩
  | catchPanic body ih => exact fun ctx => have ⟨_, _, h⟩ := ih ctx; ⟨_, _, .caught h⟩
  | block context body ih => exact fun ctx => have ⟨_, _, h⟩ := ih (ctx ++ [context]); ⟨_, _, .block h⟩
  | seq a b iha ihb =>
    intro ctx
    obtain ⟨r, p, ha⟩ := iha ctx
    obtain ⟨r', p', hb⟩ := ihb ctx
    cases p with
    | true => exact ⟨_, _, .seqPanic ha⟩
    | false => exact ⟨_, _, .seq ha hb⟩

/-- A program that keeps each context in a block, on a thread with any contexts around it, never fails
the assertion, leaves the stack as it found it, and every panic in it prints the contexts of the blocks
around the panic in order. -/
theorem contexts_of_panics (ctx : List String) (code : Code) :
    (∃ r p, Runs ctx code r p) ∧ ∀ r p, Runs ctx code r p → steps ctx code.trace = some (ctx, r) :=
  ⟨runs_total code ctx, fun _ _ h => (runs_steps h).1⟩

/-- A caught panic in an inner block, then one in the outer block. -/
example : let code : Code := .block "a" (.seq (.catchPanic (.block "b" .panic)) (.block "c" (.seq .panic .panic)))
    steps [] code.trace = some ([], [["a", "b"], ["a", "c"]]) := by decide

/-- Without that discipline the report is wrong: if the outer context is dropped first, a panic shows
the outer frame although only the inner context is alive. -/
theorem out_of_order_drop : steps [] [.enter "outer", .enter "inner", .drop, .hook]
    = some (["outer"], [["outer"]]) := by decide

end Verif.PanicContext
