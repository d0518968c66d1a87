import Verif.LineEndings.Spec

set_option autoImplicit false

/-!
C116: how generated files are kept up to date.  Model of `ensure_file_contents`,
`/repo/crates/test_utils/src/lib.rs:399-431`, and of the test that calls it for the generated files,
`/repo/crates/generate_ast/src/generate_all.rs:13-29`.  What is generated is a parameter (it is the subject of C49, C64,
C67, C79 and C95); the messages are left out, and writing succeeds, with the directories it needs.
-/

namespace Verif.AstGen.UpToDate

/-! ### Model -/

abbrev Path := Nat

/-- `fs::read_to_string` of each file; `none` if it fails. -/
abbrev Files := Path → Option Text

/-- `fs::write`. -/
def Files.write (fs : Files) (p : Path) (t : Text) : Files := fun q => if q = p then some t else fs q

/-- `normalize_newlines`, test_utils/src/lib.rs:429-431. -/
def normalizeNewlines : Text → Text
  | '\r' :: '\n' :: t => '\n' :: normalizeNewlines t
  | c :: t => c :: normalizeNewlines t
  | [] => []

/-- `try_ensure_file_contents`, test_utils/src/lib.rs:407-427. -/
def tryEnsure (fs : Files) (file : Path) (contents : Text) : Bool × Files :=
  match fs file with
  | some old =>
    if normalizeNewlines old = normalizeNewlines contents then (true, fs) else (false, fs.write file contents)
  | none => (false, fs.write file contents)

/-- The calls of `ensure_file_contents`, test_utils/src/lib.rs:399-403, one after the other: the first that finds a
file out of date panics.  generate_all.rs:18-28. -/
def ensureAll : List (Path × Text) → Files → Bool × Files
  | [], fs => (true, fs)
  | (file, contents) :: rest, fs =>
    match tryEnsure fs file contents with
    | (true, fs) => ensureAll rest fs
    | (false, fs) => (false, fs)

/-- The files after so many runs. -/
def after (targets : List (Path × Text)) : Nat → Files → Files
  | 0, fs => fs
  | n + 1, fs => after targets n (ensureAll targets fs).2

/-! ### Specification -/

/-- The texts become the same when each carriage return before a newline is removed. -/
def SameLines (a b : Text) : Prop := ∃ u, LineEndings.CrlfToLf a u ∧ LineEndings.CrlfToLf b u

/-- The file is there and has the contents, line endings aside. -/
def Current (fs : Files) (t : Path × Text) : Prop := ∃ old, fs t.1 = some old ∧ SameLines old t.2

/-- The number of targets out of date. -/
inductive Stale (fs : Files) : List (Path × Text) → Nat → Prop
  | nil : Stale fs [] 0
  | current {t l n} : Current fs t → Stale fs l n → Stale fs (t :: l) n
  | stale {t l n} : ¬ Current fs t → Stale fs l n → Stale fs (t :: l) (n + 1)

/-! ### Theorems -/

theorem normalize_spec (t : Text) : LineEndings.CrlfToLf t (normalizeNewlines t) := by
  induction t using normalizeNewlines.induct with
  | case1 t ih => rw [normalizeNewlines]; exact .pair ih
  | case2 c t hc ih =>
    rw [normalizeNewlines.eq_2 c t hc]
    refine .keep ?_ ih
    rintro ⟨rfl, hh⟩
    cases t with
    | nil => cases hh
    | cons d t =>
      simp only [List.head?_cons, Option.some.injEq] at hh
      subst hh
      exact hc t rfl rfl
  | case3 => rw [normalizeNewlines]; exact .nil

theorem crlf_unique {a u v : Text} (hu : LineEndings.CrlfToLf a u) (hv : LineEndings.CrlfToLf a v) : u = v := by
  induction hu generalizing v with
  | nil => cases hv; rfl
  | pair _ ih =>
    cases hv with
    | pair h => rw [ih h]
    | keep hn _ => exact absurd ⟨rfl, rfl⟩ hn
  | keep hn _ ih =>
    cases hv with
    | pair h => exact absurd ⟨rfl, rfl⟩ hn
    | keep _ h => rw [ih h]

theorem same_iff (a b : Text) : normalizeNewlines a = normalizeNewlines b ↔ SameLines a b := by
  constructor
  · intro h; exact ⟨_, normalize_spec a, h ▸ normalize_spec b⟩
  · rintro ⟨u, ha, hb⟩
    rw [crlf_unique (normalize_spec a) ha, crlf_unique (normalize_spec b) hb]

theorem tryEnsure_current (fs : Files) (t : Path × Text) (h : Current fs t) : tryEnsure fs t.1 t.2 = (true, fs) := by
  obtain ⟨old, ho, hs⟩ := h
  simp only [tryEnsure, ho]
  rw [if_pos ((same_iff _ _).2 hs)]

theorem tryEnsure_stale (fs : Files) (t : Path × Text) (h : ¬ Current fs t) :
    tryEnsure fs t.1 t.2 = (false, fs.write t.1 t.2) := by
  unfold tryEnsure
  split
  · next old ho =>
    rw [if_neg]
    intro hs
    exact h ⟨old, ho, (same_iff _ _).1 hs⟩
  · rfl

theorem ensureAll_current (fs : Files) (t : Path × Text) (l : List (Path × Text)) (h : Current fs t) :
    ensureAll (t :: l) fs = ensureAll l fs := by
  obtain ⟨p, c⟩ := t
  have := tryEnsure_current fs (p, c) h
  simp only [ensureAll]
  rw [this]

theorem ensureAll_stale (fs : Files) (t : Path × Text) (l : List (Path × Text)) (h : ¬ Current fs t) :
    ensureAll (t :: l) fs = (false, fs.write t.1 t.2) := by
  obtain ⟨p, c⟩ := t
  have := tryEnsure_stale fs (p, c) h
  simp only [ensureAll]
  rw [this]

/-- C116: a run succeeds if and only if every generated file is up to date, and then it writes nothing. -/
theorem run_succeeds_iff (l : List (Path × Text)) (fs : Files) :
    ((ensureAll l fs).1 = true ↔ ∀ t ∈ l, Current fs t) ∧ ((ensureAll l fs).1 = true → (ensureAll l fs).2 = fs) := by
  induction l with
  | nil => exact ⟨by simp [ensureAll], fun _ => rfl⟩
  | cons t l ih =>
    by_cases h : Current fs t
    · rw [ensureAll_current fs t l h]
      simp only [List.mem_cons, forall_eq_or_imp, h, true_and]
      exact ih
    · rw [ensureAll_stale fs t l h]
      refine ⟨⟨fun hx => (by cases hx), fun hx => absurd (hx t (List.mem_cons_self ..)) h⟩, fun hx => (by cases hx)⟩

/-- C116: a run that fails writes the first file that is out of date, as generated, and no other file. -/
theorem failed_run_updates_first (l : List (Path × Text)) (fs : Files) (h : (ensureAll l fs).1 = false) :
    ∃ front t rest, l = front ++ t :: rest ∧ (∀ s ∈ front, Current fs s) ∧ ¬ Current fs t ∧
      (ensureAll l fs).2 t.1 = some t.2 ∧ ∀ p, p ≠ t.1 → (ensureAll l fs).2 p = fs p := by
  induction l with
  | nil => cases h
  | cons t l ih =>
    by_cases hc : Current fs t
    · rw [ensureAll_current fs t l hc] at h ⊢
      obtain ⟨front, u, rest, rfl, h1, h2⟩ := ih h
      refine ⟨t :: front, u, rest, rfl, ?_, h2⟩
      intro s hs
      rcases List.mem_cons.1 hs with rfl | hs
      · exact hc
      · exact h1 s hs
    · rw [ensureAll_stale fs t l hc]
      exact ⟨[], t, l, rfl, by simp, hc, by simp [Files.write], fun p hp => by simp [Files.write, hp]⟩

theorem current_congr {fs gs : Files} {t : Path × Text} (h : gs t.1 = fs t.1) : Current gs t ↔ Current fs t := by
  unfold Current; rw [h]

theorem stale_congr {fs gs : Files} {l : List (Path × Text)} {n : Nat} (h : ∀ t ∈ l, gs t.1 = fs t.1)
    (hs : Stale fs l n) : Stale gs l n := by
  induction hs with
  | nil => exact .nil
  | current hc _ ih =>
    exact .current ((current_congr (h _ (List.mem_cons_self ..))).2 hc) (ih fun t ht => h t (List.mem_cons_of_mem _ ht))
  | stale hc _ ih =>
    exact .stale (fun hx => hc ((current_congr (h _ (List.mem_cons_self ..))).1 hx))
      (ih fun t ht => h t (List.mem_cons_of_mem _ ht))

theorem written_is_current (fs : Files) (t : Path × Text) : Current (fs.write t.1 t.2) t :=
  ⟨t.2, by simp [Files.write], normalizeNewlines t.2, normalize_spec _, normalize_spec _⟩

/-- One run brings one file up to date. -/
theorem run_updates_one (l : List (Path × Text)) (hd : (l.map (·.1)).Nodup) (fs : Files) (n : Nat)
    (h : Stale fs l n) : Stale (ensureAll l fs).2 l (n - 1) ∧ ((ensureAll l fs).1 = true ↔ n = 0) := by
  induction h with
  | nil => exact ⟨.nil, by simp [ensureAll]⟩
  | @current t l n hc hs ih =>
    rw [ensureAll_current fs t l hc]
    simp only [List.map_cons, List.nodup_cons] at hd
    obtain ⟨i1, i2⟩ := ih hd.2
    refine ⟨.current ?_ i1, i2⟩
    refine (current_congr ?_).2 hc
    cases hb : (ensureAll l fs).1 with
    | true => rw [(run_succeeds_iff l fs).2 hb]
    | false =>
      obtain ⟨front, u, rest, hl, _, _, _, hk⟩ := failed_run_updates_first l fs hb
      refine hk t.1 fun he => hd.1 ?_
      rw [List.mem_map]
      exact ⟨u, by rw [hl]; simp, he.symm⟩
  | @stale t l n hc hs _ =>
    rw [ensureAll_stale fs t l hc]
    simp only [List.map_cons, List.nodup_cons] at hd
    refine ⟨.current (written_is_current fs t) (stale_congr ?_ hs), by simp⟩
    intro u hu
    have : u.1 ≠ t.1 := fun he => hd.1 (by rw [List.mem_map]; exact ⟨u, hu, he⟩)
    simp [Files.write, this]

/-- C116: with `n` files out of date the run fails `n` times, and from then on every run succeeds. -/
theorem runs_needed (l : List (Path × Text)) (hd : (l.map (·.1)).Nodup) (fs : Files) (n : Nat) (h : Stale fs l n)
    (k : Nat) : (ensureAll l (after l k fs)).1 = true ↔ n ≤ k := by
  induction k generalizing fs n with
  | zero => rw [after, (run_updates_one l hd fs n h).2]; omega
  | succ k ih =>
    rw [after, ih _ _ (run_updates_one l hd fs n h).1]
    omega

theorem stale_at_most (fs : Files) (l : List (Path × Text)) (n : Nat) (h : Stale fs l n) : n ≤ l.length := by
  induction h with
  | nil => exact Nat.le_refl _
  | current _ _ ih => simp only [List.length_cons]; omega
  | stale _ _ ih => simp only [List.length_cons]; omega

theorem stale_exists (fs : Files) (l : List (Path × Text)) : ∃ n, Stale fs l n := by
  induction l with
  | nil => exact ⟨0, .nil⟩
  | cons t l ih =>
    obtain ⟨n, hn⟩ := ih
    by_cases h : Current fs t
    · exact ⟨n, .current h hn⟩
    · exact ⟨n + 1, .stale h hn⟩

/-- The three generated files: after at most three runs all are up to date, whatever was there before. -/
theorem three_runs_suffice (kinds tokens nodes : Text) (fs : Files) :
    ∀ t ∈ [(0, kinds), (1, tokens), (2, nodes)], Current (after [(0, kinds), (1, tokens), (2, nodes)] 3 fs) t := by
  obtain ⟨n, hn⟩ := stale_exists fs [(0, kinds), (1, tokens), (2, nodes)]
  have hle := stale_at_most fs _ n hn
  have := (runs_needed _ (by simp) fs n hn 3).2 hle
  exact (run_succeeds_iff _ _).1.1 this

/-! Witnesses: the first file has other line endings, the second is out of date, the third is missing. -/

def wanted : List (Path × Text) := [(0, "a\nb".toList), (1, "c".toList), (2, "d".toList)]
def before : Files := fun p => if p = 0 then some "a\r\nb".toList else if p = 1 then some "x".toList else none

example : (ensureAll wanted before).1 = false := by decide
example : (ensureAll wanted before).2 0 = some "a\r\nb".toList ∧ (ensureAll wanted before).2 1 = some "c".toList ∧
    (ensureAll wanted before).2 2 = none := by decide
example : (ensureAll wanted (after wanted 1 before)).1 = false := by decide
example : (ensureAll wanted (after wanted 2 before)).1 = true := by decide
example : Current before (0, "a\nb".toList) :=
  ⟨_, rfl, _, normalize_spec _, by have := normalize_spec "a\nb".toList; exact this⟩
example : (wanted.map (·.1)).Nodup := by decide

end Verif.AstGen.UpToDate
