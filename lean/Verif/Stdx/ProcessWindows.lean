import Verif.Stdx.Process

set_option autoImplicit false

/-!
C114: process output on Windows.

Model of the Windows `read2`, `/repo/crates/stdx/src/process.rs:133-238`, with the callback of
`streaming_output` (`onData`, `Verif/Stdx/ProcessModel.lean`).

Contracts of the system: an overlapped read of a pipe is started, or fails, with `ERROR_BROKEN_PIPE` only if the
process has closed its end and everything has been read.  A started read ends with at least one byte if there is one,
and no more than there is room for; with none only if there is no room or the process has closed its end.
`get_many` reports reads that have ended, each once.  `Vec::reserve` makes room for at least what is asked for.
What becomes of the buffers when the function returns an error is not modelled.
-/

namespace Verif.Stdx.Windows

/-! ### Model -/

/-- `Pipe`, process.rs:149-154, and what is outside: whether a read is under way and for how many bytes, and what
the process has yet to deliver. -/
structure WPipe where
  dst : List Nat
  capacity : Nat
  done : Bool
  reading : Option Nat
  rest : List Nat
  deriving DecidableEq, Repr

/-- `Pipe::new`, process.rs:196-203, on an empty vector. -/
def WPipe.new (rest : List Nat) : WPipe := ⟨[], 0, false, none, rest⟩

/-- `Vec::reserve`; `grow` is the capacity the allocator chooses when so much is needed. -/
def WPipe.reserve (grow : Nat → Nat) (p : WPipe) (n : Nat) : WPipe :=
  if n ≤ p.capacity - p.dst.length then p else { p with capacity := max (p.dst.length + n) (grow (p.dst.length + n)) }

/-- `slice_to_end`, process.rs:229-237: the pipe and the length of the slice. -/
def WPipe.sliceToEnd (grow : Nat → Nat) (p : WPipe) : WPipe × Nat :=
  let p := if p.capacity = 0 then p.reserve grow 16 else p
  let p := if p.capacity = p.dst.length then p.reserve grow 1 else p
  (p, p.capacity - p.dst.length)

/-- What starting a read does. -/
inductive Start where
  | started | broken | failed
  deriving DecidableEq, Repr

/-- `Pipe::read`, process.rs:205-218; `none` when it returns an error.  Where the system cannot report a broken pipe,
`broken` is a read that is started. -/
def WPipe.read (grow : Nat → Nat) (p : WPipe) (r : Start) : Option WPipe :=
  let (p, len) := p.sliceToEnd grow
  match r with
  | .failed => none
  | .started => some { p with reading := some len }
  | .broken => some (if p.rest = [] then { p with done := true, reading := none } else { p with reading := some len })

/-- `Pipe::complete`, process.rs:220-226, for a read that ends with `n` bytes, or as many as the contract allows. -/
def WPipe.complete (p : WPipe) (len n : Nat) : WPipe :=
  let transferred := min (max n 1) (min len p.rest.length)
  { p with
    dst := p.dst ++ p.rest.take transferred
    rest := p.rest.drop transferred
    reading := none
    done := if transferred = 0 then true else p.done }

/-- A pipe and what has been collected of it. -/
structure Side where
  pipe : WPipe
  got : Collected
  deriving DecidableEq, Repr

structure Read2 where
  out : Side
  err : Side
  deriving DecidableEq, Repr

/-- A completion status with what happens when the next read is started. -/
structure Status where
  token : Pipe
  n : Nat
  next : Start
  deriving DecidableEq, Repr

/-- What `get_many` returns, process.rs:178. -/
inductive Turn where
  | failed
  | statuses (l : List Status)
  deriving DecidableEq, Repr

/-- process.rs:180-182 and 184-186.  There is no status for a pipe that is not being read. -/
def Side.handle (grow : Nat → Nat) (s : Side) (n : Nat) (next : Start) : Option Side :=
  match s.pipe.reading with
  | none => some s
  | some len =>
    let p := s.pipe.complete len n
    let (data, got) := onData p.dst p.done s.got
    ({ p with dst := data }.read grow next).map fun p => ⟨p, got⟩

/-- process.rs:179-187. -/
def Read2.handle (grow : Nat → Nat) (s : Read2) (st : Status) : Option Read2 :=
  match st.token with
  | .out => (s.out.handle grow st.n st.next).map fun out => { s with out }
  | .err => (s.err.handle grow st.n st.next).map fun err => { s with err }

/-- The inner loop, process.rs:178-188. -/
def Read2.handleAll (grow : Nat → Nat) : Read2 → List Status → Option Read2
  | s, [] => some s
  | s, st :: l => (s.handle grow st).bind fun s => s.handleAll grow l

/-- The condition of the loop, process.rs:177. -/
def Read2.goesOn (s : Read2) : Bool := !s.out.pipe.done || !s.err.pipe.done

/-- The loop, process.rs:177-189. -/
def Read2.run (grow : Nat → Nat) : Read2 → List Turn → Option Read2
  | s, [] => some s
  | s, t :: ts =>
    if s.goesOn then
      match t with
      | .failed => none
      | .statuses l => (s.handleAll grow l).bind fun s => s.run grow ts
    else some s

/-- process.rs:161-173: the first reads. -/
def Read2.init (grow : Nat → Nat) (out err : List Nat) (r0 r1 : Start) : Option Read2 :=
  ((WPipe.new out).read grow r0).bind fun out =>
    ((WPipe.new err).read grow r1).map fun err => ⟨⟨out, ⟨[], []⟩⟩, ⟨err, ⟨[], []⟩⟩⟩

/-- `read2`, process.rs:156-193. -/
def read2 (grow : Nat → Nat) (out err : List Nat) (r0 r1 : Start) (ts : List Turn) : Option Read2 :=
  (Read2.init grow out err r0 r1).bind fun s => s.run grow ts

/-! ### Specification -/

/-- All of the output has been delivered, line by line. -/
def AllOf (all : List Nat) (got : Collected) : Prop := got = ⟨all, lines (lossy all)⟩

/-- Nothing, or whole lines and after them what has no newline. -/
def Unfinished (all front tail : List Nat) : Prop := all = front ++ tail ∧ Whole front ∧ 10 ∉ tail

/-- All of the output has been delivered, or all but the unfinished line it ends with. -/
def AllBut (all : List Nat) (got : Collected) : Prop :=
  AllOf all got ∨ ∃ front tail, Unfinished all front tail ∧ got = ⟨front, lines (lossy front)⟩

/-- The read that ends a pipe is one that was under way when the process closed it: when starting the next read finds
the pipe broken, the end has been reported before. -/
def Side.Waits (s : Side) (n : Nat) (next : Start) : Prop :=
  ∀ len, s.pipe.reading = some len → next = .broken → (s.pipe.complete len n).rest = [] → (s.pipe.complete len n).done = true

def Read2.Waits (s : Read2) (st : Status) : Prop :=
  match st.token with
  | .out => s.out.Waits st.n st.next
  | .err => s.err.Waits st.n st.next

def Read2.WaitsAll (grow : Nat → Nat) : Read2 → List Status → Prop
  | _, [] => True
  | s, st :: l => s.Waits st ∧ ∀ s', s.handle grow st = some s' → s'.WaitsAll grow l

/-- This holds during the whole schedule. -/
def Read2.Patient (grow : Nat → Nat) : Read2 → List Turn → Prop
  | _, [] => True
  | _, .failed :: _ => True
  | s, .statuses l :: ts => s.WaitsAll grow l ∧ ∀ s', s.handleAll grow l = some s' → s'.Patient grow ts

/-! ### Invariant -/

/-- What holds of a pipe between the statuses; `told` is whether its end was reported to the callback. -/
structure SideOk (all : List Nat) (s : Side) : Prop where
  ok : ∃ told, PipeOk all told s.pipe.dst s.got s.pipe.rest ∧ (told = true → s.pipe.done = true)
  ended : s.pipe.done = true → s.pipe.rest = []
  room : ∀ len, s.pipe.reading = some len → 1 ≤ len ∧ s.pipe.dst.length + len ≤ s.pipe.capacity
  waits : s.pipe.done = false → s.pipe.reading.isSome = true
  fits : s.pipe.dst.length ≤ s.pipe.capacity
  broken : s.pipe.done = true → s.pipe.reading.isSome = true → s.pipe.dst = [] ∧ ∃ told, told = true ∧
    PipeOk all told s.pipe.dst s.got s.pipe.rest

theorem reserve_fields (grow : Nat → Nat) (p : WPipe) (n : Nat) :
    (p.reserve grow n).dst = p.dst ∧ (p.reserve grow n).done = p.done ∧ (p.reserve grow n).rest = p.rest ∧
    (p.reserve grow n).reading = p.reading ∧ p.capacity ≤ (p.reserve grow n).capacity ∧
    (n ≤ (p.reserve grow n).capacity - p.dst.length) := by
  unfold WPipe.reserve
  split
  · next h => exact ⟨rfl, rfl, rfl, rfl, Nat.le_refl _, h⟩
  · next h => refine ⟨rfl, rfl, rfl, rfl, ?_, ?_⟩ <;> simp only <;> omega

theorem slice_fields (grow : Nat → Nat) (p : WPipe) (hf : p.dst.length ≤ p.capacity) :
    (p.sliceToEnd grow).1.dst = p.dst ∧ (p.sliceToEnd grow).1.done = p.done ∧ (p.sliceToEnd grow).1.rest = p.rest ∧
    (p.sliceToEnd grow).1.reading = p.reading ∧ p.dst.length ≤ (p.sliceToEnd grow).1.capacity ∧
    1 ≤ (p.sliceToEnd grow).2 ∧ p.dst.length + (p.sliceToEnd grow).2 ≤ (p.sliceToEnd grow).1.capacity := by
  unfold WPipe.sliceToEnd
  simp only
  have h16 := reserve_fields grow p 16
  by_cases h0 : p.capacity = 0
  · simp only [h0, if_true]
    have h1 := reserve_fields grow (p.reserve grow 16) 1
    have : ¬ (p.reserve grow 16).capacity = (p.reserve grow 16).dst.length := by
      rw [h16.1]; omega
    rw [if_neg this]
    refine ⟨h16.1, h16.2.1, h16.2.2.1, h16.2.2.2.1, ?_, ?_, ?_⟩
    · omega
    · rw [h16.1]; omega
    · rw [h16.1]; omega
  · simp only [h0, if_false]
    by_cases hl : p.capacity = p.dst.length
    · have h1 := reserve_fields grow p 1
      rw [if_pos hl]
      refine ⟨h1.1, h1.2.1, h1.2.2.1, h1.2.2.2.1, ?_, ?_, ?_⟩
      · omega
      · rw [h1.1]; omega
      · rw [h1.1]; omega
    · rw [if_neg hl]
      exact ⟨rfl, rfl, rfl, rfl, hf, by omega, by omega⟩

/-- Starting a read keeps the invariant; the pipe either was told to have ended or not. -/
theorem read_ok (grow : Nat → Nat) (all : List Nat) (p p' : WPipe) (got : Collected) (r : Start)
    (hp : ∃ told, PipeOk all told p.dst got p.rest ∧ (told = true ↔ p.done = true))
    (he : p.done = true → p.rest = []) (hf : p.dst.length ≤ p.capacity)
    (h : p.read grow r = some p') : SideOk all ⟨p', got⟩ := by
  obtain ⟨told, hk, ht⟩ := hp
  have hs := slice_fields grow p hf
  obtain ⟨h1, h2, h3, _, h5, h6, h7⟩ := hs
  have started : SideOk all ⟨{ (p.sliceToEnd grow).1 with reading := some (p.sliceToEnd grow).2 }, got⟩ := by
    refine ⟨⟨told, ?_, ?_⟩, ?_, ?_, ?_, ?_, ?_⟩
    · simpa only [h1, h3] using hk
    · intro hx; simp only [h2]; exact ht.1 hx
    · simp only [h2, h3]; exact he
    · intro len hl; simp only [Option.some.injEq] at hl; simp only [h1]; omega
    · intro _; rfl
    · simp only [h1]; exact h5
    · intro hd _
      simp only [h2] at hd
      have := ht.2 hd
      subst this
      exact ⟨by simp only [h1]; exact (hk.finished rfl).1, true, rfl, by simpa only [h1, h3] using hk⟩
  unfold WPipe.read at h
  simp only at h
  cases r with
  | failed => cases h
  | started => simp only [Option.some.injEq] at h; subst h; exact started
  | broken =>
    simp only [Option.some.injEq] at h
    subst h
    split
    · next hr =>
      refine ⟨⟨told, ?_, fun _ => rfl⟩, ?_, ?_, ?_, ?_, ?_⟩
      · simpa only [h1, h3] using hk
      · intro _; exact hr
      · intro len hl; cases hl
      · intro hd; cases hd
      · simp only [h1]; exact h5
      · intro _ hx; cases hx
    · exact started

theorem init_side (grow : Nat → Nat) (all : List Nat) (r : Start) (p : WPipe)
    (h : (WPipe.new all).read grow r = some p) : SideOk all ⟨p, ⟨[], []⟩⟩ := by
  refine read_ok grow all (WPipe.new all) p ⟨[], []⟩ r ⟨false, ?_, by simp [WPipe.new]⟩ (by simp [WPipe.new])
    (by simp [WPipe.new]) h
  exact ⟨rfl, by simp [lossy_nil, lines, splitInclusive], .inl (.inl rfl), by simp, by simp [WPipe.new]⟩

/-- After a read has ended and before the callback. -/
theorem complete_ok (all : List Nat) (s : Side) (h : SideOk all s) (len n : Nat) (hl : s.pipe.reading = some len) :
    PipeRead all (s.pipe.complete len n).done (s.pipe.complete len n).dst s.got (s.pipe.complete len n).rest := by
  obtain ⟨told, hk, _⟩ := h.ok
  have hroom := (h.room len hl).1
  have htotal : s.got.bytes ++ (s.pipe.dst ++ s.pipe.rest.take (min (max n 1) (min len s.pipe.rest.length)))
      ++ s.pipe.rest.drop (min (max n 1) (min len s.pipe.rest.length)) = all := by
    rw [← hk.total, List.append_assoc, List.append_assoc, List.take_append_drop, ← List.append_assoc]
  by_cases hr : s.pipe.rest = []
  · -- the end
    have hz : min (max n 1) (min len s.pipe.rest.length) = 0 := by rw [hr]; simp
    unfold WPipe.complete
    simp only
    refine ⟨htotal, hk.lines_eq, ?_, ?_⟩
    · by_cases hd : s.pipe.done = true
      · have hb := h.broken hd (by rw [hl]; rfl)
        right
        rw [hz]
        exact ⟨by simp, by rw [hb.1, hr]; rfl⟩
      · rcases hk.whole with hw | ht
        · exact .inl hw
        · rename_i hto
          exact absurd (hto ht) hd
    · intro _; rw [hr]; simp
  · have hpos : min (max n 1) (min len s.pipe.rest.length) ≠ 0 := by
      have : 1 ≤ s.pipe.rest.length := by
        cases hx : s.pipe.rest with
        | nil => exact absurd hx hr
        | cons b bs => simp
      omega
    have hd : s.pipe.done = false := by
      cases hx : s.pipe.done with
      | false => rfl
      | true => exact absurd (h.ended hx) hr
    unfold WPipe.complete
    simp only
    refine ⟨htotal, hk.lines_eq, ?_, ?_⟩
    · rcases hk.whole with hw | ht
      · exact .inl hw
      · rename_i hto
        rw [hto ht] at hd; cases hd
    · rw [if_neg hpos, hd]; intro hx; cases hx

theorem onData_length (data : List Nat) (eof : Bool) (dst : Collected) : (onData data eof dst).1.length ≤ data.length := by
  unfold onData
  simp only
  split
  · exact Nat.le_refl _
  · simp

theorem complete_fits (all : List Nat) (s : Side) (h : SideOk all s) (len n : Nat) (hl : s.pipe.reading = some len) :
    (s.pipe.complete len n).dst.length ≤ (s.pipe.complete len n).capacity := by
  have := (h.room len hl).2
  simp only [WPipe.complete, List.length_append, List.length_take]
  omega

theorem handle_ok (grow : Nat → Nat) (all : List Nat) (s s' : Side) (h : SideOk all s) (n : Nat) (next : Start)
    (hh : s.handle grow n next = some s') : SideOk all s' := by
  unfold Side.handle at hh
  split at hh
  · simp only [Option.some.injEq] at hh; subst hh; exact h
  · next len hl =>
    have hc := complete_ok all s h len n hl
    have hf := complete_fits all s h len n hl
    simp only [Option.map_eq_some_iff] at hh
    obtain ⟨p, hp, rfl⟩ := hh
    refine read_ok grow all { s.pipe.complete len n with
      dst := (onData (s.pipe.complete len n).dst (s.pipe.complete len n).done s.got).1 } p _ next ⟨_, onData_ok hc, Iff.rfl⟩ hc.finished ?_ hp
    exact Nat.le_trans (onData_length _ _ _) hf

structure Read2.Ok (out err : List Nat) (s : Read2) : Prop where
  out : SideOk out s.out
  err : SideOk err s.err

theorem Read2.handle_ok (grow : Nat → Nat) (out err : List Nat) (s s' : Read2) (h : s.Ok out err) (st : Status)
    (hh : s.handle grow st = some s') : s'.Ok out err := by
  unfold Read2.handle at hh
  split at hh <;> simp only [Option.map_eq_some_iff] at hh <;> obtain ⟨x, hx, rfl⟩ := hh
  · exact ⟨Windows.handle_ok grow out _ _ h.out _ _ hx, h.err⟩
  · exact ⟨h.out, Windows.handle_ok grow err _ _ h.err _ _ hx⟩

theorem Read2.handleAll_ok (grow : Nat → Nat) (out err : List Nat) (l : List Status) :
    ∀ s s' : Read2, s.Ok out err → s.handleAll grow l = some s' → s'.Ok out err := by
  induction l with
  | nil => intro s s' h hh; simp only [handleAll, Option.some.injEq] at hh; subst hh; exact h
  | cons st l ih =>
    intro s s' h hh
    simp only [handleAll, Option.bind_eq_some_iff] at hh
    obtain ⟨t, ht, hh⟩ := hh
    exact ih t s' (Read2.handle_ok grow out err s t h st ht) hh

theorem Read2.run_ok (grow : Nat → Nat) (out err : List Nat) (ts : List Turn) :
    ∀ s s' : Read2, s.Ok out err → s.run grow ts = some s' → s'.Ok out err := by
  induction ts with
  | nil => intro s s' h hh; simp only [run, Option.some.injEq] at hh; subst hh; exact h
  | cons t ts ih =>
    intro s s' h hh
    simp only [run] at hh
    split at hh
    · cases t with
      | failed => cases hh
      | statuses l =>
        simp only [Option.bind_eq_some_iff] at hh
        obtain ⟨u, hu, hh⟩ := hh
        exact ih u s' (Read2.handleAll_ok grow out err l s u h hu) hh
    · simp only [Option.some.injEq] at hh; subst hh; exact h

theorem Read2.init_ok (grow : Nat → Nat) (out err : List Nat) (r0 r1 : Start) (s : Read2)
    (h : Read2.init grow out err r0 r1 = some s) : s.Ok out err := by
  simp only [Read2.init, Option.bind_eq_some_iff, Option.map_eq_some_iff] at h
  obtain ⟨p, hp, q, hq, rfl⟩ := h
  exact ⟨init_side grow out r0 p hp, init_side grow err r1 q hq⟩

theorem read2_ok (grow : Nat → Nat) (out err : List Nat) (r0 r1 : Start) (ts : List Turn) (s : Read2)
    (h : read2 grow out err r0 r1 ts = some s) : s.Ok out err := by
  simp only [read2, Option.bind_eq_some_iff] at h
  obtain ⟨t, ht, h⟩ := h
  exact Read2.run_ok grow out err ts t s (Read2.init_ok grow out err r0 r1 t ht) h

/-! ### Theorems -/

theorem SideOk.allBut {all : List Nat} {s : Side} (h : SideOk all s) (hd : s.pipe.done = true) :
    AllBut all s.got := by
  obtain ⟨told, hk, _⟩ := h.ok
  have ht := hk.total
  rw [h.ended hd, List.append_nil] at ht
  rcases hk.whole with hw | hx
  · exact .inr ⟨s.got.bytes, s.pipe.dst, ⟨ht.symm, hw, hk.partial_line⟩, by rw [← hk.lines_eq]⟩
  · left
    rw [(hk.finished hx).1, List.append_nil] at ht
    have hl := hk.lines_eq
    unfold AllOf
    rw [← ht, ← hl]

/-- C114: when the loop ends, the process has closed both pipes and everything it wrote has been delivered in order,
line by line, except perhaps a last line with no newline after it. -/
theorem windows_delivers_complete_lines (grow : Nat → Nat) (out err : List Nat) (r0 r1 : Start) (ts : List Turn)
    (s : Read2) (h : read2 grow out err r0 r1 ts = some s) (hend : s.goesOn = false) :
    s.out.pipe.rest = [] ∧ s.err.pipe.rest = [] ∧
    AllBut out s.out.got ∧ AllBut err s.err.got := by
  have hk := read2_ok grow out err r0 r1 ts s h
  simp only [Read2.goesOn, Bool.or_eq_false_iff, Bool.not_eq_false'] at hend
  exact ⟨hk.out.ended hend.1, hk.err.ended hend.2, hk.out.allBut hend.1, hk.err.allBut hend.2⟩

theorem whole_tail {front tail : List Nat} (h : Whole (front ++ tail)) (ht : 10 ∉ tail) : tail = [] := by
  rcases h with h | ⟨a, h⟩
  · exact (List.append_eq_nil_iff.1 h).2
  · rcases List.eq_nil_or_concat tail with rfl | ⟨t, b, rfl⟩
    · rfl
    · rw [List.concat_eq_append, ← List.append_assoc] at h
      have := (List.append_inj' h rfl).2
      simp only [List.cons.injEq, and_true] at this
      subst this
      simp at ht

/-- C114, what holds: output that ends with a newline is delivered as a whole, on every schedule. -/
theorem windows_delivers_all_partial (grow : Nat → Nat) (out err : List Nat) (r0 r1 : Start) (ts : List Turn)
    (s : Read2) (h : read2 grow out err r0 r1 ts = some s) (hend : s.goesOn = false) :
    (Whole out → AllOf out s.out.got) ∧ (Whole err → AllOf err s.err.got) := by
  have one : ∀ all got, AllBut all got → Whole all → AllOf all got := by
    intro all got hb hw
    rcases hb with hb | ⟨front, tail, ⟨rfl, _, ht⟩, e⟩
    · exact hb
    · have := whole_tail hw ht
      subst this
      rw [List.append_nil]; exact e
  obtain ⟨_, _, h0, h1⟩ := windows_delivers_complete_lines grow out err r0 r1 ts s h hend
  exact ⟨one _ _ h0, one _ _ h1⟩

/-! #### Schedules on which nothing is lost -/

/-- Ended only after the callback was told. -/
def Side.Told (all : List Nat) (s : Side) : Prop :=
  s.pipe.done = true → PipeOk all true s.pipe.dst s.got s.pipe.rest

theorem read_told (grow : Nat → Nat) (p p' : WPipe) (r : Start) (hf : p.dst.length ≤ p.capacity)
    (hb : r = .broken → p.rest = [] → p.done = true) (h : p.read grow r = some p') :
    p'.dst = p.dst ∧ p'.rest = p.rest ∧ p'.done = p.done := by
  obtain ⟨h1, h2, h3, _⟩ := slice_fields grow p hf
  unfold WPipe.read at h
  simp only at h
  cases r with
  | failed => cases h
  | started => simp only [Option.some.injEq] at h; subst h; exact ⟨h1, h3, h2⟩
  | broken =>
    simp only [Option.some.injEq] at h
    subst h
    split
    · next hr => exact ⟨h1, h3, (hb rfl (h3 ▸ hr)).symm⟩
    · exact ⟨h1, h3, h2⟩

theorem handle_told (grow : Nat → Nat) (all : List Nat) (s s' : Side) (h : SideOk all s) (n : Nat) (next : Start)
    (ht : s.Told all) (hw : s.Waits n next) (hh : s.handle grow n next = some s') : s'.Told all := by
  unfold Side.handle at hh
  split at hh
  · simp only [Option.some.injEq] at hh; subst hh; exact ht
  · next len hl =>
    have hc := complete_ok all s h len n hl
    have hf := complete_fits all s h len n hl
    simp only [Option.map_eq_some_iff] at hh
    obtain ⟨p, hp, rfl⟩ := hh
    obtain ⟨e1, e2, e3⟩ := read_told grow { s.pipe.complete len n with
      dst := (onData (s.pipe.complete len n).dst (s.pipe.complete len n).done s.got).1 } p next (Nat.le_trans (onData_length _ _ _) hf) (hw len hl) hp
    intro hd
    simp only at hd ⊢
    rw [e1, e2]
    rw [e3] at hd
    simp only at hd ⊢
    have := onData_ok hc
    rw [hd] at this ⊢
    exact this

theorem Read2.handleAll_told (grow : Nat → Nat) (out err : List Nat) (l : List Status) :
    ∀ s s' : Read2, s.Ok out err → s.WaitsAll grow l → s.out.Told out → s.err.Told err →
      s.handleAll grow l = some s' → s'.out.Told out ∧ s'.err.Told err := by
  induction l with
  | nil => intro s s' _ _ h0 h1 hh; simp only [handleAll, Option.some.injEq] at hh; subst hh; exact ⟨h0, h1⟩
  | cons st l ih =>
    intro s s' h hw h0 h1 hh
    simp only [handleAll, Option.bind_eq_some_iff] at hh
    obtain ⟨t, ht, hh⟩ := hh
    have hk := Read2.handle_ok grow out err s t h st ht
    have hboth : t.out.Told out ∧ t.err.Told err := by
      have hw1 := hw.1
      unfold Read2.Waits at hw1
      unfold Read2.handle at ht
      split at ht <;> rename_i hx <;> rw [hx] at hw1 <;> simp only [Option.map_eq_some_iff] at ht <;>
        obtain ⟨x, hx, rfl⟩ := ht
      · exact ⟨handle_told grow out _ _ h.out _ _ h0 hw1 hx, h1⟩
      · exact ⟨h0, handle_told grow err _ _ h.err _ _ h1 hw1 hx⟩
    exact ih t s' hk (hw.2 t ht) hboth.1 hboth.2 hh

theorem Read2.run_told (grow : Nat → Nat) (out err : List Nat) (ts : List Turn) :
    ∀ s s' : Read2, s.Ok out err → s.Patient grow ts → s.out.Told out → s.err.Told err →
      s.run grow ts = some s' → s'.out.Told out ∧ s'.err.Told err := by
  induction ts with
  | nil => intro s s' _ _ h0 h1 hh; simp only [run, Option.some.injEq] at hh; subst hh; exact ⟨h0, h1⟩
  | cons t ts ih =>
    intro s s' h hw h0 h1 hh
    simp only [run] at hh
    split at hh
    · cases t with
      | failed => cases hh
      | statuses l =>
        simp only [Option.bind_eq_some_iff] at hh
        obtain ⟨u, hu, hh⟩ := hh
        simp only [Patient] at hw
        obtain ⟨g0, g1⟩ := Read2.handleAll_told grow out err l s u h hw.1 h0 h1 hu
        exact ih u s' (Read2.handleAll_ok grow out err l s u h hu) (hw.2 u hu) g0 g1 hh
    · simp only [Option.some.injEq] at hh; subst hh; exact ⟨h0, h1⟩

theorem Side.Told.allOf {all : List Nat} {s : Side} (h : s.Told all) (hd : s.pipe.done = true) : AllOf all s.got := by
  have hk := h hd
  obtain ⟨hb, hr⟩ := hk.finished rfl
  have := hk.total
  rw [hb, hr, List.append_nil, List.append_nil] at this
  have hl := hk.lines_eq
  unfold AllOf
  rw [← this, ← hl]

/-- A first read that finds the pipe broken had nothing to lose. -/
theorem init_told (grow : Nat → Nat) (all : List Nat) (r : Start) (p : WPipe)
    (h : (WPipe.new all).read grow r = some p) : Side.Told all ⟨p, ⟨[], []⟩⟩ := by
  have h1 := slice_fields grow (WPipe.new all) (by simp [WPipe.new])
  intro hd
  simp only at hd ⊢
  unfold WPipe.read at h
  simp only at h
  cases r with
  | failed => cases h
  | started =>
    simp only [Option.some.injEq] at h; subst h
    simp only [h1.2.1] at hd
    cases hd
  | broken =>
    simp only [Option.some.injEq] at h
    subst h
    split
    · next hr =>
      rw [h1.2.2.1] at hr
      simp only [WPipe.new] at hr
      subst hr
      simp only [h1.1, h1.2.2.1]
      exact ⟨rfl, by simp [lossy_nil, lines, splitInclusive], .inl (.inl rfl), fun _ => ⟨rfl, rfl⟩, by simp [WPipe.new]⟩
    · next hr =>
      rw [if_neg hr] at hd
      simp only [h1.2.1] at hd
      cases hd

/-- C114, what holds: all output is delivered if the end of a pipe always meets a read that is under way. -/
theorem patient_delivers_all_partial (grow : Nat → Nat) (out err : List Nat) (r0 r1 : Start) (ts : List Turn)
    (s : Read2) (hp : ∀ s0, Read2.init grow out err r0 r1 = some s0 → s0.Patient grow ts)
    (h : read2 grow out err r0 r1 ts = some s) (hend : s.goesOn = false) :
    AllOf out s.out.got ∧ AllOf err s.err.got := by
  simp only [read2, Option.bind_eq_some_iff] at h
  obtain ⟨s0, hi, h⟩ := h
  have hk := Read2.init_ok grow out err r0 r1 s0 hi
  have ht : s0.out.Told out ∧ s0.err.Told err := by
    simp only [Read2.init, Option.bind_eq_some_iff, Option.map_eq_some_iff] at hi
    obtain ⟨p, hp, q, hq, rfl⟩ := hi
    exact ⟨init_told grow out r0 p hp, init_told grow err r1 q hq⟩
  obtain ⟨g0, g1⟩ := Read2.run_told grow out err ts s0 s hk (hp s0 hi) ht.1 ht.2 h
  simp only [Read2.goesOn, Bool.or_eq_false_iff, Bool.not_eq_false'] at hend
  exact ⟨g0.allOf hend.1, g1.allOf hend.2⟩

/-- The loop never waits for nothing: as long as a pipe has not ended a read of it is under way, with room for at least
one byte, and what the read may store stays within the capacity of the buffer. -/
theorem open_pipes_are_read (grow : Nat → Nat) (out err : List Nat) (r0 r1 : Start) (ts : List Turn)
    (s : Read2) (h : read2 grow out err r0 r1 ts = some s) :
    ∀ side, side = s.out ∨ side = s.err →
      (side.pipe.done = false → ∃ len, side.pipe.reading = some len ∧ 1 ≤ len) ∧
      side.pipe.dst.length ≤ side.pipe.capacity ∧
      ∀ len, side.pipe.reading = some len → side.pipe.dst.length + len ≤ side.pipe.capacity := by
  have hk := read2_ok grow out err r0 r1 ts s h
  have one : ∀ all side, SideOk all side → (side.pipe.done = false → ∃ len, side.pipe.reading = some len ∧ 1 ≤ len) ∧
      side.pipe.dst.length ≤ side.pipe.capacity ∧
      ∀ len, side.pipe.reading = some len → side.pipe.dst.length + len ≤ side.pipe.capacity := by
    intro all side hs
    refine ⟨fun hd => ?_, hs.fits, fun len hl => (hs.room len hl).2⟩
    have := hs.waits hd
    obtain ⟨len, hl⟩ := Option.isSome_iff_exists.1 this
    exact ⟨len, hl, (hs.room len hl).1⟩
  rintro side (rfl | rfl)
  · exact one out _ hk.out
  · exact one err _ hk.err

/-- A turn makes progress: a completion of an open pipe takes at least one byte off what is left, or ends the pipe. -/
theorem completion_makes_progress (p : WPipe) (len n : Nat) (h : 1 ≤ len) :
    (p.complete len n).rest.length < p.rest.length ∨ (p.complete len n).done = true := by
  unfold WPipe.complete
  simp only [List.length_drop]
  by_cases hr : p.rest.length = 0
  · right
    rw [if_pos (by omega)]
  · left; omega

/-! #### The violation -/

theorem unfinished_unique {a b t u : List Nat} (h : a ++ t = b ++ u) (ha : Whole a) (hb : Whole b) (ht : 10 ∉ t)
    (hu : 10 ∉ u) : a = b ∧ t = u := by
  rcases List.append_eq_append_iff.1 h with ⟨c, rfl, rfl⟩ | ⟨c, rfl, rfl⟩
  · have := whole_tail hb (fun hx => ht (List.mem_append_left _ hx))
    subst this; simp
  · have := whole_tail ha (fun hx => hu (List.mem_append_left _ hx))
    subst this; simp

/-- C114 fails for every output that ends with an unfinished line: if the process has closed the pipe by the time the
next read is started, the function returns without an error and the line is neither passed on nor collected.  This is
what happens to a process that writes its output at once and exits. -/
theorem unfinished_line_is_lost (all front tail : List Nat) (h : Unfinished all front tail) (hne : tail ≠ []) :
    ∃ grow r0 r1 ts s, read2 grow all [] r0 r1 ts = some s ∧ s.goesOn = false ∧
      s.out.got = ⟨front, lines (lossy front)⟩ ∧ ¬ AllOf all s.out.got := by
  obtain ⟨rfl, hw, ht⟩ := h
  obtain ⟨all, hall⟩ : ∃ all, all = front ++ tail := ⟨_, rfl⟩
  have hlen : 1 ≤ all.length := by
    rw [hall, List.length_append]
    cases htl : tail with
    | nil => exact absurd htl hne
    | cons b t => simp only [List.length_cons]; omega
  rw [← hall]
  -- the whole output arrives at once
  have hc : ∀ p : WPipe, p.dst = [] → p.rest = all → p.done = false → p.complete (16 + all.length) all.length =
      { p with dst := all, rest := [], reading := none } := by
    intro p h1 h2 h3
    have hm : min (max all.length 1) (min (16 + all.length) all.length) = all.length := by omega
    simp only [WPipe.complete, h1, h2, hm, List.take_length, List.drop_length, List.nil_append, h3]
    rw [if_neg (by omega)]
  have hd := onData_ok (all := all) (isDone := false) (buf := all) (dst := ⟨[], []⟩) (pending := [])
    ⟨by simp, by simp [lossy_nil, lines, splitInclusive], .inl (.inl rfl), by simp⟩
  have hgot : (onData all false ⟨[], []⟩).2 = ⟨front, lines (lossy front)⟩ := by
    have h1 := hd.total
    rw [List.append_nil] at h1
    have h2 := hd.whole
    simp only [Bool.false_eq_true, or_false] at h2
    have h3 := unfinished_unique (h1.trans hall) h2 hw hd.partial_line ht
    have h4 := hd.lines_eq
    rw [h3.1] at h4
    rw [← h4, ← h3.1]
  have h0 : ∀ rest, (WPipe.new rest).sliceToEnd (fun n => n + all.length) =
      (⟨[], 16 + all.length, false, none, rest⟩, 16 + all.length) := by
    intro rest
    have hm : max 16 (16 + all.length) = 16 + all.length := by omega
    simp [WPipe.sliceToEnd, WPipe.new, WPipe.reserve, hm]
  refine ⟨fun n => n + all.length, .started, .broken, [.statuses [⟨.out, all.length, .broken⟩]], ?_⟩
  have hi : Read2.init (fun n => n + all.length) all [] .started .broken =
      some ⟨⟨⟨[], 16 + all.length, false, some (16 + all.length), all⟩, ⟨[], []⟩⟩,
        ⟨⟨[], 16 + all.length, true, none, []⟩, ⟨[], []⟩⟩⟩ := by
    simp [Read2.init, WPipe.read, h0]
  have hread : ∀ p : WPipe, p.rest = [] → p.dst.length ≤ p.capacity → ∃ q, p.read (fun n => n + all.length) .broken = some q ∧
      q.done = true := by
    intro p hp hf
    have := slice_fields (fun n => n + all.length) p hf
    simp only [WPipe.read]
    rw [if_pos (this.2.2.1.trans hp)]
    exact ⟨_, rfl, rfl⟩
  obtain ⟨q, hq, hqd⟩ := hread ⟨(onData all false ⟨[], []⟩).1, 16 + all.length, false, none, []⟩ rfl
    (by have := onData_length all false ⟨[], []⟩; simp only; omega)
  have hh : Side.handle (fun n => n + all.length) ⟨⟨[], 16 + all.length, false, some (16 + all.length), all⟩, ⟨[], []⟩⟩
      all.length .broken = some ⟨q, (onData all false ⟨[], []⟩).2⟩ := by
    simp only [Side.handle]
    rw [hc _ rfl rfl rfl]
    simp only [hq, Option.map_some]
  refine ⟨⟨⟨q, (onData all false ⟨[], []⟩).2⟩, ⟨⟨[], 16 + all.length, true, none, []⟩, ⟨[], []⟩⟩⟩, ?_, ?_, hgot, ?_⟩
  · simp [read2, hi, Read2.run, Read2.goesOn, Read2.handleAll, Read2.handle, hh]
  · simp [Read2.goesOn, hqd]
  · simp only [hgot, AllOf, Collected.mk.injEq, not_and]
    intro hx
    rw [hall] at hx
    have := congrArg List.length hx
    rw [List.length_append] at this
    have : tail.length = 0 := by omega
    exact absurd (List.length_eq_zero_iff.1 this) hne

/-! #### Witnesses -/

instance decAllSome {α : Type} (o : Option α) (P : α → Prop) [∀ a, Decidable (P a)] :
    Decidable (∀ a, o = some a → P a) :=
  match o with
  | none => isTrue (by intro a h; cases h)
  | some a => if h : P a then isTrue (by intro b hb; cases hb; exact h) else isFalse (fun hx => h (hx a rfl))

instance (s : Side) (n : Nat) (next : Start) : Decidable (s.Waits n next) :=
  decAllSome s.pipe.reading fun len => next = .broken → (s.pipe.complete len n).rest = [] → (s.pipe.complete len n).done = true

instance (s : Read2) (st : Status) : Decidable (s.Waits st) := by
  unfold Read2.Waits; split <;> infer_instance

instance decWaitsAll (grow : Nat → Nat) : ∀ (l : List Status) (s : Read2), Decidable (s.WaitsAll grow l)
  | [], _ => isTrue trivial
  | st :: l, s =>
    have := decWaitsAll grow l
    inferInstanceAs (Decidable (s.Waits st ∧ ∀ s', s.handle grow st = some s' → s'.WaitsAll grow l))

instance decPatient (grow : Nat → Nat) : ∀ (ts : List Turn) (s : Read2), Decidable (s.Patient grow ts)
  | [], _ => isTrue trivial
  | .failed :: _, _ => isTrue trivial
  | .statuses l :: ts, s =>
    have := decPatient grow ts
    inferInstanceAs (Decidable (s.WaitsAll grow l ∧ ∀ s', s.handleAll grow l = some s' → s'.Patient grow ts))

/-- "ok\nend" and "no\n". -/
def someOut : List Nat := [111, 107, 10, 101, 110, 100]
def someErr : List Nat := [110, 111, 10]

/-- The end meets a read that is under way: everything is delivered. -/
def patientTurns : List Turn :=
  [.statuses [⟨.out, 4, .started⟩, ⟨.err, 9, .started⟩], .statuses [⟨.out, 9, .started⟩],
   .statuses [⟨.err, 0, .broken⟩, ⟨.out, 0, .broken⟩]]

/-- The last read is started when the pipe is broken. -/
def hastyTurns : List Turn :=
  [.statuses [⟨.out, 4, .started⟩, ⟨.err, 9, .broken⟩], .statuses [⟨.out, 9, .broken⟩]]

def delivered (ts : List Turn) : Option (Bool × List Nat × List Nat) :=
  (read2 id someOut someErr .started .started ts).map fun s => (s.goesOn, s.out.got.bytes, s.err.got.bytes)

example : delivered patientTurns = some (false, someOut, someErr) := by decide +kernel
example : delivered hastyTurns = some (false, [111, 107, 10], someErr) := by decide +kernel
/-- Two turns are not enough here: the loop goes on. -/
example : delivered (patientTurns.take 2) = some (true, [111, 107, 10], someErr) := by decide +kernel
/-- The first schedule is patient, as `patient_delivers_all_partial` asks. -/
example : ∀ s0, Read2.init id someOut someErr .started .started = some s0 → s0.Patient id patientTurns := by
  decide +kernel
example : ¬ ∀ s0, Read2.init id someOut someErr .started .started = some s0 → s0.Patient id hastyTurns := by
  decide +kernel
example : Unfinished someOut [111, 107, 10] [101, 110, 100] := ⟨rfl, .inr ⟨[111, 107], rfl⟩, by decide⟩
example : Whole someErr := .inr ⟨[110, 111], rfl⟩

end Verif.Stdx.Windows
