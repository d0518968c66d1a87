import Verif.Server.Logged
import Verif.Stdx.Utf8
import Verif.Stdx.Process
import Verif.Urls.Model

/-!
The errors of `Verif.Server.Logged` as the lines of the log (C120).
-/

set_option autoImplicit false

namespace Verif.Server.LogLines

open Verif.FileSet Verif.Vfs Verif.Server Verif.Server.Logged

variable {J : Type}

/-! ### Model -/

/-- How values are written with `{:?}` by their libraries: which characters Rust takes for printable, and the ids and JSON
values of lsp_server and serde_json. -/
structure Formats (J : Type) where
  printable : Char → Bool
  id : RequestId → Text
  json : J → Text

/-- `{:?}` of a character within a text: `char::escape_debug`. -/
def debugChar (printable : Char → Bool) (c : Char) : Text :=
  if c = '\x00' then "\\0".toList
  else if c = '\t' then "\\t".toList
  else if c = '\r' then "\\r".toList
  else if c = '\n' then "\\n".toList
  else if c = '\\' then "\\\\".toList
  else if c = '"' then "\\\"".toList
  else if printable c then [c]
  else "\\u{".toList ++ Nat.toDigits 16 c.toNat ++ "}".toList

/-- `{:?}` of a text. -/
def debugText (printable : Char → Bool) (t : Text) : Text := '"' :: t.flatMap (debugChar printable) ++ ['"']

/-- `{}` of a path, vfs_path.rs:283-290: `Path::display`, which replaces what is no UTF-8. -/
def displayPath (path : Bytes) : Text := Stdx.lossy (path.map UInt8.toNat)

/-- The messages of main_loop.rs:263, 281, 298 and dispatch.rs:114, 247; requests and notifications have the derived
`Debug` of lsp_server. -/
def message (fmt : Formats J) : Entry J → Text
  | .duplicateOpen path => "duplicate DidOpenTextDocument: ".toList ++ displayPath path
  | .unexpectedChange path =>
    "unexpected DidChangeTextDocument: ".toList ++ displayPath path ++ "; send DidOpenTextDocument first".toList
  | .orphanClose path => "orphan DidCloseTextDocument: ".toList ++ displayPath path
  | .unknownRequest id method params =>
    "unknown request: Request { id: ".toList ++ fmt.id id ++ ", method: ".toList ++ debugText fmt.printable method ++
      ", params: ".toList ++ fmt.json params ++ " }".toList
  | .unhandledNotification method params =>
    "unhandled notification: Notification { method: ".toList ++ debugText fmt.printable method ++ ", params: ".toList ++
      fmt.json params ++ " }".toList

/-- The target of a record is the module it is made in. -/
def target : Entry J → Text
  | .unknownRequest .. | .unhandledNotification .. => "move_language_server::dispatch".toList
  | _ => "move_language_server::main_loop".toList

/-- `format_event`, logger.rs:96-142, without the newline.  The server has no spans; the fields of a record are its
message. -/
def line (fmt : Formats J) (e : Entry J) : Text := "[ERROR ".toList ++ target e ++ "] ".toList ++ message fmt e

/-- What is written to the log, logger.rs:141. -/
def logText (fmt : Formats J) (log : List (Entry J)) : Text := log.flatMap fun e => line fmt e ++ ['\n']

/-! ### Specification -/

namespace Spec

/-- The lines of a text. -/
def Lines (text : Text) (lines : List Text) : Prop :=
  text = lines.flatMap (fun l => l ++ ['\n']) ∧ ∀ l ∈ lines, '\n' ∉ l

/-- The libraries write values without line breaks. -/
def OneLine (fmt : Formats J) : Prop := (∀ id, '\n' ∉ fmt.id id) ∧ ∀ v, '\n' ∉ fmt.json v

/-- The path a record is about. -/
def pathIn : Entry J → Option Bytes
  | .duplicateOpen path => some path
  | .unexpectedChange path => some path
  | .orphanClose path => some path
  | _ => none

/-- The kind of a record. -/
inductive Mistake where
  | duplicateOpen | unexpectedChange | orphanClose | unknownRequest | unhandledNotification
  deriving DecidableEq

def mistake : Entry J → Mistake
  | .duplicateOpen _ => .duplicateOpen
  | .unexpectedChange _ => .unexpectedChange
  | .orphanClose _ => .orphanClose
  | .unknownRequest .. => .unknownRequest
  | .unhandledNotification .. => .unhandledNotification

end Spec

open Spec

/-! ### Line breaks -/

theorem digit_no_newline : ∀ n : Fin 16, Nat.digitChar n.val ≠ '\n' := by decide

theorem toDigitsCore_no_newline : ∀ (fuel n : Nat) (acc : List Char), '\n' ∉ acc → '\n' ∉ Nat.toDigitsCore 16 fuel n acc := by
  intro fuel
  induction fuel with
  | zero => intro n acc h; exact h
  | succ fuel ih =>
    intro n acc h
    have hd : '\n' ∉ Nat.digitChar (n % 16) :: acc := by
      simp only [List.mem_cons, not_or]
      exact ⟨(digit_no_newline ⟨n % 16, Nat.mod_lt _ (by decide)⟩).symm, h⟩
    simp only [Nat.toDigitsCore]
    split
    · exact hd
    · exact ih _ _ hd

theorem toDigits_no_newline (n : Nat) : '\n' ∉ Nat.toDigits 16 n := toDigitsCore_no_newline _ _ _ (by simp)

theorem debugChar_no_newline (p : Char → Bool) (c : Char) : '\n' ∉ debugChar p c := by
  unfold debugChar
  repeat' split
  all_goals first | (simp; done) | skip
  · rename_i h _ _ _
    simp; exact fun e => h e.symm
  · have := toDigits_no_newline c.toNat
    simp [this]

theorem debugText_no_newline (p : Char → Bool) (t : Text) : '\n' ∉ debugText p t := by
  simp only [debugText, List.mem_append, List.mem_cons, List.mem_flatMap, not_or, not_exists, not_and]
  exact ⟨⟨by decide, fun c _ => debugChar_no_newline p c⟩, by decide⟩

theorem ofNat_newline {n : Nat} (h : Char.ofNat n = '\n') : n = 10 := by
  by_cases hv : n.isValidChar
  · have h1 : (Char.ofNat n).toNat = n := by simp [Char.ofNat, hv, Char.ofNatAux, Char.toNat]
    rw [h] at h1
    exact h1.symm
  · have h1 : (Char.ofNat n).toNat = 0 := by simp [Char.ofNat, hv, Char.toNat]
    rw [h] at h1
    exact absurd h1 (by decide)

theorem matching_cons {r : Nat × Nat} {rs : List (Nat × Nat)} {bs : List Nat}
    (h : (Stdx.matching (r :: rs) bs).length = (r :: rs).length) :
    ∃ c cs, Stdx.matching (r :: rs) bs = c :: Stdx.matching rs cs ∧ r.1 ≤ c ∧ c ≤ r.2 ∧
      (Stdx.matching rs cs).length = rs.length := by
  cases bs with
  | nil => simp [Stdx.matching] at h
  | cons b bs =>
    obtain ⟨lo, hi⟩ := r
    simp only [Stdx.matching] at h ⊢
    split at h
    · rename_i hb
      rw [if_pos hb]
      exact ⟨b, bs, rfl, hb.1, hb.2, by simpa using h⟩
    · simp at h

theorem assembled_newline {b : Nat} {rs : List (Nat × Nat)} {bs : List Nat} (hc : Stdx.continuations b = some rs)
    (hl : (Stdx.matching rs bs).length = rs.length) (h : Stdx.assemble b (Stdx.matching rs bs) = '\n') : b = 10 := by
  unfold Stdx.continuations at hc
  repeat' split at hc
  all_goals cases hc
  · rw [Stdx.matching_nil] at h
    exact ofNat_newline h
  all_goals
    exfalso
    obtain ⟨c1, s1, e1, l1, u1, h1⟩ := matching_cons hl
    rw [e1] at h
    first
    | obtain ⟨c2, s2, e2, l2, u2, h2⟩ := matching_cons h1
      rw [e2] at h
      first
      | obtain ⟨c3, s3, e3, l3, u3, h3⟩ := matching_cons h2
        rw [e3, Stdx.matching_nil] at h
        simp only [Stdx.assemble, List.length_cons, List.length_nil, List.foldl_cons, List.foldl_nil] at h
        have := ofNat_newline h
        simp only at l1 u1 l2 u2 l3 u3
        omega
      | rw [Stdx.matching_nil] at h
        simp only [Stdx.assemble, List.length_cons, List.length_nil, List.foldl_cons, List.foldl_nil] at h
        have := ofNat_newline h
        simp only at l1 u1 l2 u2
        omega
    | rw [Stdx.matching_nil] at h
      simp only [Stdx.assemble, List.length_cons, List.length_nil, List.foldl_cons, List.foldl_nil] at h
      have := ofNat_newline h
      simp only at l1 u1
      omega

theorem lossy_newline_mem (bs : List Nat) (h : '\n' ∈ Stdx.lossy bs) : 10 ∈ bs := by
  match bs with
  | [] => rw [Stdx.lossy_nil] at h; cases h
  | b :: bs =>
    rw [Stdx.lossy] at h
    cases hc : Stdx.continuations b with
    | none =>
      rw [hc] at h
      rcases List.mem_cons.1 h with h | h
      · exact absurd h (by decide)
      · exact List.mem_cons_of_mem _ (lossy_newline_mem bs h)
    | some rs =>
      rw [hc] at h
      rcases List.mem_cons.1 h with h | h
      · split at h
        · rename_i hl
          rw [assembled_newline hc hl h.symm]
          simp
        · exact absurd h (by decide)
      · exact List.mem_cons_of_mem _ (List.mem_of_mem_drop (lossy_newline_mem _ h))
termination_by bs.length
decreasing_by all_goals (simp_wf; try omega)

theorem displayPath_no_newline {path : Bytes} (h : 10 ∉ path) : '\n' ∉ displayPath path := by
  intro hn
  have := lossy_newline_mem _ hn
  rw [List.mem_map] at this
  obtain ⟨b, hb, e⟩ := this
  have : b = 10 := UInt8.toNat_inj.1 e
  exact h (this ▸ hb)

/-- The fixed beginning of a line. -/
def header : Mistake → Text
  | .duplicateOpen => "[ERROR move_language_server::main_loop] duplicate DidOpenTextDocument: ".toList
  | .unexpectedChange => "[ERROR move_language_server::main_loop] unexpected DidChangeTextDocument: ".toList
  | .orphanClose => "[ERROR move_language_server::main_loop] orphan DidCloseTextDocument: ".toList
  | .unknownRequest => "[ERROR move_language_server::dispatch] unknown request: Request { id: ".toList
  | .unhandledNotification =>
    "[ERROR move_language_server::dispatch] unhandled notification: Notification { method: ".toList

/-- What comes after it. -/
def rest (fmt : Formats J) : Entry J → Text
  | .duplicateOpen path => displayPath path
  | .unexpectedChange path => displayPath path ++ "; send DidOpenTextDocument first".toList
  | .orphanClose path => displayPath path
  | .unknownRequest id method params =>
    fmt.id id ++ (", method: ".toList ++ (debugText fmt.printable method ++ (", params: ".toList ++ (fmt.json params ++ " }".toList))))
  | .unhandledNotification method params =>
    debugText fmt.printable method ++ (", params: ".toList ++ (fmt.json params ++ " }".toList))

theorem header_open : "[ERROR ".toList ++ ("move_language_server::main_loop".toList ++ ("] ".toList ++
    "duplicate DidOpenTextDocument: ".toList)) = header .duplicateOpen := by decide +kernel
theorem header_change : "[ERROR ".toList ++ ("move_language_server::main_loop".toList ++ ("] ".toList ++
    "unexpected DidChangeTextDocument: ".toList)) = header .unexpectedChange := by decide +kernel
theorem header_close : "[ERROR ".toList ++ ("move_language_server::main_loop".toList ++ ("] ".toList ++
    "orphan DidCloseTextDocument: ".toList)) = header .orphanClose := by decide +kernel
theorem header_request : "[ERROR ".toList ++ ("move_language_server::dispatch".toList ++ ("] ".toList ++
    "unknown request: Request { id: ".toList)) = header .unknownRequest := by decide +kernel
theorem header_notification : "[ERROR ".toList ++ ("move_language_server::dispatch".toList ++ ("] ".toList ++
    "unhandled notification: Notification { method: ".toList)) = header .unhandledNotification := by decide +kernel

theorem join1 {a b c d h : Text} (e : a ++ (b ++ (c ++ d)) = h) (r : Text) : a ++ b ++ c ++ (d ++ r) = h ++ r := by
  rw [← e]; simp only [List.append_assoc]
theorem join2 {a b c d h : Text} (e : a ++ (b ++ (c ++ d)) = h) (r x : Text) : a ++ b ++ c ++ (d ++ r ++ x) = h ++ (r ++ x) := by
  rw [← e]; simp only [List.append_assoc]
theorem join4 {a b c d h : Text} (e : a ++ (b ++ (c ++ d)) = h) (r x y z : Text) :
    a ++ b ++ c ++ (d ++ r ++ x ++ y ++ z) = h ++ (r ++ (x ++ (y ++ z))) := by
  rw [← e]; simp only [List.append_assoc]
theorem join6 {a b c d h : Text} (e : a ++ (b ++ (c ++ d)) = h) (r x y z u v : Text) :
    a ++ b ++ c ++ (d ++ r ++ x ++ y ++ z ++ u ++ v) = h ++ (r ++ (x ++ (y ++ (z ++ (u ++ v))))) := by
  rw [← e]; simp only [List.append_assoc]

theorem line_eq (fmt : Formats J) (e : Entry J) : line fmt e = header (mistake e) ++ rest fmt e := by
  cases e with
  | duplicateOpen p => exact join1 header_open _
  | unexpectedChange p => exact join2 header_change _ _
  | orphanClose p => exact join1 header_close _
  | unknownRequest id m p => exact join6 header_request _ _ _ _ _ _
  | unhandledNotification m p => exact join4 header_notification _ _ _ _

theorem header_no_newline (k : Mistake) : '\n' ∉ header k := by cases k <;> decide +kernel

theorem line_no_newline {fmt : Formats J} (hf : OneLine fmt) (e : Entry J) (h : ∀ p, pathIn e = some p → 10 ∉ p) :
    '\n' ∉ line fmt e := by
  have h1 : '\n' ∉ ", method: ".toList := by decide +kernel
  have h2 : '\n' ∉ ", params: ".toList := by decide +kernel
  have h3 : '\n' ∉ " }".toList := by decide +kernel
  have h4 : '\n' ∉ "; send DidOpenTextDocument first".toList := by decide +kernel
  rw [line_eq, List.mem_append, not_or]
  refine ⟨header_no_newline _, ?_⟩
  cases e with
  | duplicateOpen p => exact displayPath_no_newline (h p rfl)
  | unexpectedChange p =>
    simp only [rest, List.mem_append, not_or]
    exact ⟨displayPath_no_newline (h p rfl), h4⟩
  | orphanClose p => exact displayPath_no_newline (h p rfl)
  | unknownRequest id m p =>
    simp only [rest, List.mem_append, not_or]
    exact ⟨hf.1 id, h1, debugText_no_newline _ _, h2, hf.2 p, h3⟩
  | unhandledNotification m p =>
    simp only [rest, List.mem_append, not_or]
    exact ⟨debugText_no_newline _ _, h2, hf.2 p, h3⟩

/-- The lines of a text are determined. -/
theorem lines_unique {text : Text} {l : List Text} : ∀ {l' : List Text}, Lines text l → Lines text l' → l = l' := by
  induction l generalizing text with
  | nil =>
    rintro l' ⟨h1, _⟩ ⟨h2, _⟩
    cases l' with
    | nil => rfl
    | cons x xs => rw [h1] at h2; simp at h2
  | cons x xs ih =>
    rintro l' ⟨h1, h2⟩ ⟨h3, h4⟩
    cases l' with
    | nil => rw [h1] at h3; simp at h3
    | cons y ys =>
      have hx := h2 x (by simp)
      have hy := h4 y (by simp)
      rw [h1] at h3
      simp only [List.flatMap_cons, List.append_assoc, List.singleton_append] at h3
      have hxy : x = y ∧ xs.flatMap (fun l => l ++ ['\n']) = ys.flatMap (fun l => l ++ ['\n']) := by
        clear ih h1 h2 h4
        induction x generalizing y with
        | nil =>
          cases y with
          | nil => simpa using h3
          | cons c y => simp at h3; simp [← h3.1] at hy
        | cons c x ih =>
          cases y with
          | nil => simp at h3; simp [h3.1] at hx
          | cons d y =>
            simp only [List.cons_append, List.cons.injEq] at h3
            simp only [List.mem_cons, not_or] at hx hy
            obtain ⟨r1, r2⟩ := ih y hx.2 hy.2 h3.2
            exact ⟨by rw [h3.1, r1], r2⟩
      rw [hxy.1, ih (text := xs.flatMap (fun l => l ++ ['\n'])) ⟨rfl, fun l hl => h2 l (by simp [hl])⟩
        ⟨hxy.2, fun l hl => h4 l (by simp [hl])⟩]

/-- **C120, partly.**  If there is no line break in the paths of the documents the client gets wrong, the log has one line
for each error. -/
theorem one_line_each_partial (fmt : Formats J) (hf : OneLine fmt) (log : List (Entry J))
    (h : ∀ e ∈ log, ∀ p, pathIn e = some p → 10 ∉ p) : Lines (logText fmt log) (log.map (line fmt)) := by
  refine ⟨by simp [logText, List.flatMap_map], fun l hl => ?_⟩
  obtain ⟨e, he, rfl⟩ := List.mem_map.1 hl
  exact line_no_newline hf e (h e he)

theorem header_long (k : Mistake) : 60 ≤ (header k).length := by cases k <;> decide +kernel

theorem header_tells (k k' : Mistake) (h : (header k).take 60 = (header k').take 60) : k = k' := by
  cases k <;> cases k' <;> first | rfl | exact absurd h (by decide +kernel)

/-- **C120.**  A line says what kind of error it is about, and the path. -/
theorem line_tells (fmt : Formats J) (e e' : Entry J) (h : line fmt e = line fmt e') :
    mistake e = mistake e' ∧ (pathIn e).map displayPath = (pathIn e').map displayPath := by
  rw [line_eq, line_eq] at h
  have hk : mistake e = mistake e' := by
    apply header_tells
    have := congrArg (List.take 60) h
    rwa [List.take_append_of_le_length (header_long _), List.take_append_of_le_length (header_long _)] at this
  refine ⟨hk, ?_⟩
  rw [hk, List.append_right_inj] at h
  cases e <;> cases e' <;> first | cases hk | skip
  · exact congrArg some h
  · exact congrArg some (List.append_left_inj _ |>.1 h)
  · exact congrArg some h
  · rfl
  · rfl

/-! ### A document with a line break in its name -/

theorem closing_log (rd : Reader J) (env : Env) (cfg : SourceRootConfig) (dyn : Bool) (params : J) (cuts : Nat → Nat)
    (path : Bytes) (h : rd.didClose params = some (some path)) :
    (logRun rd env cfg dyn [.message (.notification closeMethod params) cuts]).1 = [.orphanClose path] := by
  have hl : (logStep rd env (State.init cfg dyn) (.message (.notification closeMethod params) cuts)).1 = [.orphanClose path] := by
    simp [logStep, Raw.isExit, close_ne, handle, onNotification_eq, handled, h, closeLogged, State.init, AMap.get]
  unfold logRun logFrom
  generalize logStep rd env (State.init cfg dyn) (.message (.notification closeMethod params) cuts) = r at hl
  rcases r with ⟨log, o⟩
  simp only at hl
  subst hl
  cases o <;> simp [logFrom]

theorem utf8s_lt (t : Text) (b : Nat) (h : b ∈ Stdx.utf8s t) : b < 256 := by
  obtain ⟨c, _, hb⟩ := List.mem_flatMap.1 h
  have hv := Stdx.char_valid c
  unfold Stdx.utf8 at hb
  simp only at hb
  (repeat' split at hb) <;> simp only [List.mem_cons, List.not_mem_nil, or_false] at hb <;> omega

/-- **C120, violated.**  The client, or whoever gives a file its name, can make the log have any line: for every text
there is a path such that closing it without having opened it adds the text as a line of its own. -/
theorem any_line_can_be_forged (fmt : Formats J) (rd : Reader J) (env : Env) (cfg : SourceRootConfig) (dyn : Bool)
    (t : Text) (ht : '\n' ∉ t) (params : J) (cuts : Nat → Nat)
    (h : rd.didClose params = some (some ((Stdx.utf8s ("/\n".toList ++ t)).map UInt8.ofNat))) :
    Lines (logText fmt (logRun rd env cfg dyn [.message (.notification closeMethod params) cuts]).1)
      ["[ERROR move_language_server::main_loop] orphan DidCloseTextDocument: /".toList, t] := by
  rw [closing_log rd env cfg dyn params cuts _ h]
  have hb : displayPath ((Stdx.utf8s ("/\n".toList ++ t)).map UInt8.ofNat) = "/\n".toList ++ t := by
    have hm : ((Stdx.utf8s ("/\n".toList ++ t)).map UInt8.ofNat).map UInt8.toNat = Stdx.utf8s ("/\n".toList ++ t) := by
      rw [List.map_map]
      conv => rhs; rw [← List.map_id (Stdx.utf8s ("/\n".toList ++ t))]
      refine List.map_congr_left fun b hb => ?_
      have := utf8s_lt _ b hb
      simp only [Function.comp_apply, id_eq, UInt8.toNat_ofNat']
      omega
    rw [displayPath, hm]
    have := Stdx.lossy_text ("/\n".toList ++ t) []
    simpa [Stdx.lossy_nil] using this
  have hs : "/\n".toList = ['/', '\n'] := by decide +kernel
  have hh : header .orphanClose ++ ['/'] =
      "[ERROR move_language_server::main_loop] orphan DidCloseTextDocument: /".toList := by decide +kernel
  refine ⟨?_, ?_⟩
  · simp only [logText, List.flatMap_cons, List.flatMap_nil, List.append_nil, line_eq, mistake, rest, hb, ← hh]
    rw [hs]
    simp only [List.append_assoc, List.cons_append, List.nil_append]
  · intro l hl
    simp only [List.mem_cons, List.not_mem_nil, or_false] at hl
    rcases hl with rfl | rfl
    · decide +kernel
    · exact ht

/-! ### Cases -/

def sampleFormats : Formats (Bytes × Text) := ⟨fun c => 32 ≤ c.toNat && c.toNat < 127, fun _ => "1".toList, fun _ => "Null".toList⟩

example : OneLine sampleFormats := by
  have h1 : '\n' ∉ "1".toList := by decide +kernel
  have h2 : '\n' ∉ "Null".toList := by decide +kernel
  exact ⟨fun _ => h1, fun _ => h2⟩

/-- The log of the session in `Verif.Server.Logged`: none of its paths has a line break. -/
example : let log := (logRun sampleReader sampleEnv SourceRootConfig.default false (sampleSession ['x'])).1
    log.length = 4 ∧ ∀ e ∈ log, ∀ p, pathIn e = some p → 10 ∉ p := by
  have h : (logRun sampleReader sampleEnv SourceRootConfig.default false (sampleSession ['x'])).1 =
      [.orphanClose pathB, .duplicateOpen pathA, .unhandledNotification saveMethod (pathA, []),
       .unknownRequest (.num 1) "textDocument/hover".toList (pathA, [])] := by decide +kernel
  simp only [h]
  refine ⟨rfl, ?_⟩
  simp only [List.mem_cons, List.not_mem_nil, or_false]
  rintro e (rfl | rfl | rfl | rfl) p hp <;> cases hp <;> decide

/-- The path `/` followed by a line break and a text is the one of a URI. -/
example : Urls.vfsPath false ⟨"file".toList, none, "/%0A[ERROR%20x]%20y".toList, none, none⟩ = .ok "/\n[ERROR x] y".toList := by
  decide +kernel

/-- A reader that finds this path in the parameters. -/
example : ∃ rd : Reader Unit, ∀ p, rd.didClose p = some (some ((Stdx.utf8s ("/\n".toList ++ "[ERROR x] y".toList)).map UInt8.ofNat)) :=
  ⟨⟨fun _ => true, fun _ => none, fun _ => none, fun _ => none, fun _ => none, fun _ => some (some _)⟩, fun _ => rfl⟩

end Verif.Server.LogLines
