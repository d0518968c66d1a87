import Verif.Editor.DoveModel

set_option autoImplicit false

/-!
C94: the metadata of a project is what the command printed.
-/

namespace Verif.Editor.Dove

open Stdx

namespace Spec

/-- What the process wrote to its standard output. -/
def written : List Event → List Nat
  | .stdout data :: es => data ++ written es
  | _ :: es => written es
  | [] => []

/-- What it wrote to its standard error. -/
def complained : List Event → List Nat
  | .stderr data :: es => data ++ complained es
  | _ :: es => complained es
  | [] => []

/-- Each piece is a text of its own: no character is cut. -/
def Whole (es : List Event) : Prop :=
  ∀ data, Event.stdout data ∈ es ∨ Event.stderr data ∈ es → ∃ t, data = utf8s t

/-- The process has not ended. -/
def Running (es : List Event) : Prop := ∀ code, Event.close code ∉ es

end Spec

open Spec

theorem utf8s_append (a b : Text) : utf8s (a ++ b) = utf8s a ++ utf8s b := by simp [utf8s]

theorem lossy_whole (t : Text) : lossy (utf8s t) = t := by
  have := lossy_text t []
  have e : lossy [] = [] := by rw [lossy]
  simpa [e] using this

theorem utf8s_injective {a b : Text} (h : utf8s a = utf8s b) : a = b := by
  rw [← lossy_whole a, ← lossy_whole b, h]

theorem run_append (es : List Event) (h : Running es) (s : Text × Text) (rest : List Event) :
    ∃ out err, runCommand (es ++ rest) s = runCommand rest (s.1 ++ out, s.2 ++ err) ∧
      (Whole es → utf8s out = written es ∧ utf8s err = complained es) := by
  induction es generalizing s with
  | nil => exact ⟨[], [], by simp, fun _ => ⟨rfl, rfl⟩⟩
  | cons e es ih =>
    have hr : Running es := fun code hc => h code (List.mem_cons_of_mem _ hc)
    have hw : Whole (e :: es) → Whole es := fun hw data hd => hw data (by
      rcases hd with hd | hd
      · exact .inl (List.mem_cons_of_mem _ hd)
      · exact .inr (List.mem_cons_of_mem _ hd))
    cases e with
    | close code => exact absurd (by simp) (h code)
    | error =>
      obtain ⟨out, err, e1, e2⟩ := ih hr s
      exact ⟨out, err, by rw [List.cons_append, runCommand]; exact e1, fun w => e2 (hw w)⟩
    | stdout data =>
      obtain ⟨out, err, e1, e2⟩ := ih hr (s.1 ++ lossy data, s.2)
      refine ⟨lossy data ++ out, err, by rw [List.cons_append, runCommand, e1, List.append_assoc], fun w => ?_⟩
      obtain ⟨t, ht⟩ := w data (.inl (by simp))
      obtain ⟨h1, h2⟩ := e2 (hw w)
      exact ⟨by rw [utf8s_append, ht, lossy_whole, h1]; rfl, h2⟩
    | stderr data =>
      obtain ⟨out, err, e1, e2⟩ := ih hr (s.1, s.2 ++ lossy data)
      refine ⟨out, lossy data ++ err, by rw [List.cons_append, runCommand, e1, List.append_assoc], fun w => ?_⟩
      obtain ⟨t, ht⟩ := w data (.inr (by simp))
      obtain ⟨h1, h2⟩ := e2 (hw w)
      exact ⟨h1, by rw [utf8s_append, ht, lossy_whole, h2]; rfl⟩

/-- **C94, partial.**  The outputs of a command that has ended are the texts it wrote, however they were cut
into pieces and mixed, as long as no character was cut.  Missing: pieces that cut a character, see below. -/
theorem output_read_partial (es : List Event) (code : Int) (after : List Event) (out err : Text)
    (hr : Running es) (hw : Whole es) (ho : written es = utf8s out) (he : complained es = utf8s err) :
    runCommand (es ++ .close code :: after) ([], []) = some (out, err) := by
  obtain ⟨out', err', e1, e2⟩ := run_append es hr ([], []) (.close code :: after)
  obtain ⟨h1, h2⟩ := e2 hw
  rw [e1, runCommand]
  rw [ho] at h1
  rw [he] at h2
  simp [utf8s_injective h1, utf8s_injective h2]

theorem ascii_whole (data : List Nat) (h : ∀ b ∈ data, b < 128) : ∃ t, data = utf8s t := by
  induction data with
  | nil => exact ⟨[], rfl⟩
  | cons b data ih =>
    obtain ⟨t, ht⟩ := ih fun x hx => h x (by simp [hx])
    have hb := h b (by simp)
    refine ⟨Char.ofNat b :: t, ?_⟩
    have hn : (Char.ofNat b).toNat = b := by
      have hv : b.isValidChar := .inl (by omega)
      rw [Char.ofNat, dif_pos hv]
      exact congrArg (fun x : Nat => x) (by simp [Char.ofNatAux, Char.toNat])
    rw [utf8s, List.flatMap_cons]
    have : utf8 (Char.ofNat b) = [b] := by unfold utf8; simp only [hn]; rw [if_pos (by omega)]
    rw [this, ht]
    rfl

theorem mem_written {es : List Event} {data : List Nat} (h : Event.stdout data ∈ es) : ∀ b ∈ data, b ∈ written es := by
  induction es with
  | nil => cases h
  | cons e es ih =>
    intro b hb
    rcases List.mem_cons.1 h with rfl | ht
    · exact List.mem_append_left _ hb
    · cases e with
      | stdout d => exact List.mem_append_right _ (ih ht b hb)
      | stderr d => exact ih ht b hb
      | error => exact ih ht b hb
      | close c => exact ih ht b hb

theorem mem_complained {es : List Event} {data : List Nat} (h : Event.stderr data ∈ es) : ∀ b ∈ data, b ∈ complained es := by
  induction es with
  | nil => cases h
  | cons e es ih =>
    intro b hb
    rcases List.mem_cons.1 h with rfl | ht
    · exact List.mem_append_left _ hb
    · cases e with
      | stdout d => exact ih ht b hb
      | stderr d => exact List.mem_append_right _ (ih ht b hb)
      | error => exact ih ht b hb
      | close c => exact ih ht b hb

/-- Output in ASCII is read as it was written, however it was cut. -/
theorem ascii_output_read (es : List Event) (code : Int) (after : List Event) (out err : Text)
    (hr : Running es) (ho : written es = utf8s out) (he : complained es = utf8s err)
    (ha : ∀ b, b ∈ written es ∨ b ∈ complained es → b < 128) :
    runCommand (es ++ .close code :: after) ([], []) = some (out, err) := by
  refine output_read_partial es code after out err hr ?_ ho he
  rintro data (hd | hd)
  · exact ascii_whole data fun b hb => ha b (.inl (mem_written hd b hb))
  · exact ascii_whole data fun b hb => ha b (.inr (mem_complained hd b hb))

/-- **C94 does not hold**: the process writes `é`, in one piece or in two; in two it is read as two
replacement characters. -/
theorem cut_character_lost :
    written [.stdout [0xC3], .stdout [0xA9], .close 0] = written [.stdout [0xC3, 0xA9], .close 0] ∧
    written [.stdout [0xC3, 0xA9], .close 0] = utf8s ['é'] ∧
    runCommand [.stdout [0xC3, 0xA9], .close 0] ([], []) = some (['é'], []) ∧
    runCommand [.stdout [0xC3], .stdout [0xA9], .close 0] ([], []) = some (['�', '�'], []) := by
  refine ⟨by decide, by decide, by decide +kernel, by decide +kernel⟩

/-- The command is over once the process has ended, and not before: if it cannot be started and never ends, the
extension waits for ever. -/
theorem waits_iff (es : List Event) (s : Text × Text) : runCommand es s = none ↔ Running es := by
  constructor
  · intro h code hc
    obtain ⟨pre, post, rfl⟩ := List.append_of_mem hc
    clear hc
    induction pre generalizing s with
    | nil => cases h
    | cons e pre ih =>
      cases e with
      | close c => cases h
      | error => exact ih _ h
      | stdout d => exact ih _ h
      | stderr d => exact ih _ h
  · intro h
    obtain ⟨out, err, e, _⟩ := run_append es h s []
    rw [List.append_nil] at e
    rw [e]
    rfl

/-- **C94**: for a command that has ended with the output `out` and the complaints `err`: the message with the complaints is
shown exactly if nothing was printed or what was printed is a falsy value; the metadata is what was printed; and
output that is not JSON rejects the promise without a message. -/
theorem metadata_of_output (parse : Text → Option (Option Metadata)) (es : List Event) (out err : Text)
    (h : runCommand es ([], []) = some (out, err)) :
    (∀ message, (metadataWithErrorMessage parse es).2 = some message ↔
      (out = [] ∨ parse (trim out) = some none) ∧ message = "Dove.toml is invalid: ".toList ++ err) ∧
    (∀ m, (metadataWithErrorMessage parse es).1 = .resolved (some m) ↔ out ≠ [] ∧ parse (trim out) = some (some m)) ∧
    ((metadataWithErrorMessage parse es).1 = .rejected ↔ out ≠ [] ∧ parse (trim out) = none) := by
  unfold metadataWithErrorMessage metadata
  rw [h]
  simp only
  by_cases ho : out = []
  · rw [if_pos ho]
    simp [ho, eq_comm]
  · rw [if_neg ho]
    cases hp : parse (trim out) with
    | none => simp [ho]
    | some m => cases m <;> simp [ho, eq_comm]

/-- **C94 does not hold**: a command that fails is not noticed; its exit code is not looked at. -/
theorem exit_code_ignored (parse : Text → Option (Option Metadata)) (es after : List Event) (code code' : Int) :
    metadataWithErrorMessage parse (es ++ .close code :: after) = metadataWithErrorMessage parse (es ++ .close code' :: after) := by
  have : ∀ s, runCommand (es ++ .close code :: after) s = runCommand (es ++ .close code' :: after) s := by
    induction es with
    | nil => intro s; rfl
    | cons e es ih =>
      intro s
      cases e with
      | close c => rfl
      | error => exact ih s
      | stdout d => exact ih _
      | stderr d => exact ih _
  unfold metadataWithErrorMessage metadata
  rw [this]

/-- A command that prints its error to the standard output and fails: nothing is shown. -/
example : (metadataWithErrorMessage (fun _ => none) [.stdout (utf8s "bad\n".toList), .close 1]) = (.rejected, none) := by
  decide +kernel

/-- The language server is told of the dependencies in order, then of the folder of the modules, and of nothing else. -/
theorem folders_told (m : Metadata) :
    (initOpts m).modulesFolders = m.localDependencies ++ ((m.gitDependencies.map (·.localPaths)).flatten ++ [m.modulesDir]) ∧
    (initOpts m).dialect = m.dialect ∧ (initOpts m).senderAddress = m.accountAddress := by
  have h1 : ∀ (l acc : List Text), l.foldl (fun fs d => fs ++ [d]) acc = acc ++ l := by
    intro l
    induction l with
    | nil => simp
    | cons a l ih => intro acc; rw [List.foldl_cons, ih]; simp
  have h2 : ∀ (l : List GitDependency) (acc : List Text),
      l.foldl (fun fs d => fs ++ d.localPaths) acc = acc ++ (l.map (·.localPaths)).flatten := by
    intro l
    induction l with
    | nil => simp
    | cons a l ih => intro acc; rw [List.foldl_cons, ih]; simp
  refine ⟨?_, rfl, rfl⟩
  simp only [initOpts]
  rw [h1, h2]
  simp

example : Running [.stdout (utf8s "{}".toList), .stderr (utf8s "é".toList)] ∧
    Whole [.stdout (utf8s "{}".toList), .stderr (utf8s "é".toList)] := by
  refine ⟨by intro c h; simp at h, ?_⟩
  rintro data (h | h)
  · simp at h; exact ⟨_, h⟩
  · simp at h; exact ⟨_, h⟩

end Verif.Editor.Dove
