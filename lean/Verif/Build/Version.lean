import Verif.Text.Spec

set_option autoImplicit false

/-!
C108: the version the server reports.  It is computed by the build script, which cargo does not run at every build.

The command line tools are parameters: `git rev-parse --short HEAD` prints the short hash of the commit `HEAD` stands for,
if there is one.  Git's part of the contract is in `Act.apply`: committing on a branch changes the branch and not the file
`.git/HEAD`; switching to a branch or a commit, and committing without a branch, writes that file.  Cargo's part is in
`Cargo.build`: the script is run if it has not been run, if the package was cleaned, if the file it named was written since, or if
the variable it named has changed; otherwise the output of its last run is used again.
-/

namespace Verif.Build

/-- move_language_server/build.rs:30-52, `rev`.  The arguments are the values of the variable `MOVE_LANGUAGE_SERVER_REV`, of
the commands at 54-56 and 58-60, and of the variable `MOVE_LANGUAGE_SERVER_CHANNEL`; `none` is `Err`. -/
def rev (revVar commitHash buildDate channelVar : Option Text) : Text :=
  match revVar with
  | some r => r
  | none =>
    match commitHash with
    | some h =>
      let buf := h
      let buf := match buildDate with
        | some d => buf ++ [' '] ++ d
        | none => buf
      buf ++ [' '] ++ channelVar.getD "dev".toList
    | none => "???????".toList

/-- build.rs:17-25, the loop of `set_rerun`.  A path is the list of its names, innermost first, so `parent` exists if the list
is not empty; `head` says in which directories `.git/HEAD` exists. -/
def watched (head : List Text → Bool) : List Text → Option (List Text)
  | [] => none
  | n :: up => if head (n :: up) then some (n :: up) else watched head up

/-- What `HEAD` is. -/
inductive Head where
  | branch (name : Text)
  | commit (hash : Text)
  deriving DecidableEq

/-- The repository, and the variables of the environment. -/
structure World where
  branches : Text → Option Text
  head : Head
  revVar : Option Text
  channelVar : Option Text
  date : Option Text
  /-- the directory whose `.git/HEAD` git uses -/
  repo : List Text
  /-- the directory of the package -/
  package : List Text

def World.headCommit (w : World) : Option Text :=
  match w.head with
  | .branch b => w.branches b
  | .commit h => some h

/-- build.rs:5-8 and 54-60, in this world. -/
def World.version (w : World) : Text := rev w.revVar w.headCommit w.date w.channelVar

/-- `.git/HEAD` exists in the directory of the repository only. -/
def World.watches (w : World) : Option (List Text) := watched (fun d => d == w.repo) w.package

/-- What cargo remembers of the last run of the script: the output, the value of the variable named at build.rs:11, and the
directory of the file named at build.rs:20; and whether that file has been written since. -/
structure Cargo where
  last : Option (Text × Option Text × Option (List Text))
  written : Bool

/-- The version that is built, and what is remembered. -/
def Cargo.build (c : Cargo) (w : World) : Text × Cargo :=
  match c.last with
  | some (v, r, f) =>
    if w.revVar ≠ r ∨ (c.written = true ∧ f = some w.repo) then (w.version, ⟨some (w.version, w.revVar, w.watches), false⟩)
    else (v, c)
  | none => (w.version, ⟨some (w.version, w.revVar, w.watches), false⟩)

inductive Act where
  /-- `git commit`, which makes this commit -/
  | commit (hash : Text)
  /-- `git switch` -/
  | switch (branch : Text)
  /-- `git switch --detach` -/
  | detach (hash : Text)
  | setRev (v : Option Text)
  | setChannel (v : Option Text)
  | setDate (v : Option Text)
  | clean
  | build

/-- The world, cargo's memory, and for every build so far the world it was made in and the version, last first. -/
structure State where
  world : World
  cargo : Cargo
  built : List (World × Text)

def Act.apply (s : State) : Act → State
  | .commit h =>
    match s.world.head with
    | .branch b => { s with world := { s.world with branches := fun n => if n = b then some h else s.world.branches n } }
    | .commit _ => { s with world := { s.world with head := .commit h }, cargo := { s.cargo with written := true } }
  | .switch b => { s with world := { s.world with head := .branch b }, cargo := { s.cargo with written := true } }
  | .detach h => { s with world := { s.world with head := .commit h }, cargo := { s.cargo with written := true } }
  | .setRev v => { s with world := { s.world with revVar := v } }
  | .setChannel v => { s with world := { s.world with channelVar := v } }
  | .setDate v => { s with world := { s.world with date := v } }
  | .clean => { s with cargo := ⟨none, false⟩ }
  | .build => { s with cargo := (s.cargo.build s.world).2, built := (s.world, (s.cargo.build s.world).1) :: s.built }

/-- A fresh clone, and what is done with it. -/
def history (w : World) (acts : List Act) : State := acts.foldl Act.apply ⟨w, ⟨none, false⟩, []⟩

/-! ### Which file is watched -/

/-- The nearest directory above the package that has a `.git/HEAD` is watched, the root directory excepted. -/
theorem watched_iff (head : List Text → Bool) (dir d : List Text) :
    watched head dir = some d ↔
      ∃ inner, dir = inner ++ d ∧ d ≠ [] ∧ head d = true ∧ ∀ x ∈ List.range inner.length, head (inner.drop x ++ d) = false := by
  induction dir with
  | nil =>
    constructor
    · intro h; cases h
    · rintro ⟨inner, h1, h2, _⟩
      exact absurd (List.append_eq_nil_iff.1 h1.symm).2 h2
  | cons n up ih =>
    rw [watched]
    split
    · rename_i hn
      constructor
      · intro h
        cases h
        exact ⟨[], rfl, by simp, hn, by simp⟩
      · rintro ⟨inner, h1, h2, h3, h4⟩
        cases inner with
        | nil => rw [h1]; rfl
        | cons m inner =>
          have := h4 0 (by simp)
          rw [List.drop_zero, ← h1, hn] at this
          cases this
    · rename_i hn
      rw [ih]
      constructor
      · rintro ⟨inner, h1, h2, h3, h4⟩
        refine ⟨n :: inner, by rw [h1]; rfl, h2, h3, ?_⟩
        intro x hx
        cases x with
        | zero => rw [List.drop_zero, List.cons_append, ← h1]; simpa using hn
        | succ x => exact h4 x (by simpa using hx)
      · rintro ⟨inner, h1, h2, h3, h4⟩
        cases inner with
        | nil =>
          rw [List.nil_append] at h1
          rw [← h1] at h3
          exact absurd h3 hn
        | cons m inner =>
          cases h1
          refine ⟨inner, rfl, h2, h3, fun x hx => h4 (x + 1) (by simpa using hx)⟩

/-! ### Specification -/

/-- The first word. -/
def firstWord (t : Text) : Text := t.takeWhile (· ≠ ' ')

/-- The commit is made while a branch is checked out. -/
def OnBranch (w : World) (before : List Act) : Prop := ∃ b, (history w before).world.head = .branch b

/-- Something that makes cargo run the script again. -/
def Act.Noticed : Act → Prop
  | .switch _ => True
  | .detach _ => True
  | .clean => True
  | _ => False

/-- Between a commit on a branch and the next build there is always something that cargo notices. -/
def CommitsAreNoticed (w : World) (acts : List Act) : Prop :=
  ∀ before h between after, acts = before ++ .commit h :: (between ++ .build :: after) → OnBranch w before →
    ∃ a ∈ between, a.Noticed

/-! ### Theorems -/

/-- The `HEAD` git uses is the one cargo watches, if the package lies in the repository and the repository is not in
the root directory, and only then. -/
theorem watches_repo_iff (w : World) :
    w.watches = some w.repo ↔ w.repo ≠ [] ∧ ∃ inner, w.package = inner ++ w.repo := by
  unfold World.watches
  rw [watched_iff]
  constructor
  · rintro ⟨inner, h1, h2, _⟩
    exact ⟨h2, inner, h1⟩
  · rintro ⟨h2, inner, h1⟩
    refine ⟨inner, h1, h2, by simp, ?_⟩
    intro x hx
    rw [List.mem_range] at hx
    have : inner.drop x ++ w.repo ≠ w.repo := by
      intro e
      have := congrArg List.length e
      simp only [List.length_append, List.length_drop] at this
      omega
    simpa using this

/-- What git does: a commit is checked out when it is made, switching checks out what the branch is at, and nothing else
moves; a commit moves no branch but the one it is made on. -/
theorem checked_out (s : State) (h b : Text) :
    (Act.apply s (.commit h)).world.headCommit = some h ∧
    (Act.apply s (.detach h)).world.headCommit = some h ∧
    (Act.apply s (.switch b)).world.headCommit = s.world.branches b ∧
    (s.world.head ≠ .branch b → (Act.apply s (.commit h)).world.branches b = s.world.branches b) ∧
    ∀ a, (∀ h, a ≠ .commit h ∧ a ≠ .detach h ∧ a ≠ .switch h) →
      (Act.apply s a).world.headCommit = s.world.headCommit ∧ (Act.apply s a).world.branches = s.world.branches := by
  refine ⟨?_, rfl, rfl, ?_, ?_⟩
  · simp only [Act.apply]
    split
    · next b' hb => simp [World.headCommit, hb]
    · rfl
  · intro hb
    simp only [Act.apply]
    split
    · next b' hb' =>
      have : b ≠ b' := fun e => hb (by rw [e, hb'])
      simp [this]
    · rfl
  · intro a ha
    cases a with
    | commit h => exact absurd rfl (ha h).1
    | detach h => exact absurd rfl (ha h).2.1
    | switch h => exact absurd rfl (ha h).2.2
    | _ => exact ⟨rfl, rfl⟩

/-- When the script is run, the version starts with the commit that is checked out. -/
theorem version_names_commit {w : World} {h : Text} (hr : w.revVar = none) (hc : w.headCommit = some h) (hs : ' ' ∉ h) :
    firstWord w.version = h := by
  have key : ∀ r : Text, firstWord (h ++ ' ' :: r) = h := by
    intro r
    unfold firstWord
    rw [List.takeWhile_append_of_pos]
    · simp
    · intro c hcm
      have : c ≠ ' ' := fun e => hs (e ▸ hcm)
      simpa using this
  unfold World.version rev
  rw [hr, hc]
  cases w.date with
  | none => simp only [List.append_assoc, List.cons_append, List.nil_append]; exact key _
  | some d => simp only [List.append_assoc, List.cons_append, List.nil_append]; exact key _

theorem history_snoc (w : World) (acts : List Act) (a : Act) : history w (acts ++ [a]) = a.apply (history w acts) := by
  unfold history
  rw [List.foldl_append]
  rfl

theorem snoc_induction {P : List Act → Prop} (hn : P []) (hs : ∀ l a, P l → P (l ++ [a])) (l : List Act) : P l := by
  rw [← List.reverse_reverse l]
  induction l.reverse with
  | nil => exact hn
  | cons a l ih =>
    rw [List.reverse_cons]
    exact hs _ _ ih

/-- What the script printed last was the version of some build. -/
def Remembers (s : State) : Prop :=
  ∀ v r f, s.cargo.last = some (v, r, f) → ∃ w v', (w, v') ∈ s.built ∧ v = w.version ∧ r = w.revVar

/-- Every build reports the version that was right at it, or at an earlier build. -/
def Honest : List (World × Text) → Prop
  | [] => True
  | (w, v) :: b => (v = w.version ∨ ∃ w' v', (w', v') ∈ b ∧ v = w'.version ∧ w'.revVar = w.revVar) ∧ Honest b

theorem built_of {s : State} {a : Act} (h : a ≠ .build) : (a.apply s).built = s.built := by
  cases a with
  | build => exact absurd rfl h
  | commit c =>
    simp only [Act.apply]
    split <;> rfl
  | _ => rfl

theorem last_of {s : State} {a : Act} (h : a ≠ .build) :
    (a.apply s).cargo.last = s.cargo.last ∨ (a.apply s).cargo.last = none := by
  cases a with
  | build => exact absurd rfl h
  | commit c =>
    simp only [Act.apply]
    split <;> exact .inl rfl
  | clean => exact .inr rfl
  | _ => exact .inl rfl

theorem build_cases (c : Cargo) (w : World) :
    (c.build w = (w.version, ⟨some (w.version, w.revVar, w.watches), false⟩)) ∨
    (∃ v f, c.last = some (v, w.revVar, f) ∧ (c.written = true → f ≠ some w.repo) ∧ c.build w = (v, c)) := by
  unfold Cargo.build
  split
  · rename_i v r f hl
    split
    · exact .inl rfl
    · rename_i hn
      have hr : w.revVar = r := Classical.byContradiction fun h => hn (.inl h)
      refine .inr ⟨v, f, by rw [hl, hr], fun hw hf => hn (.inr ⟨hw, hf⟩), rfl⟩
  · exact .inl rfl

theorem honest_history (w : World) (acts : List Act) : Remembers (history w acts) ∧ Honest (history w acts).built := by
  induction acts using snoc_induction with
  | hn => exact ⟨(fun _ _ _ h => by cases h), trivial⟩
  | hs acts a ih =>
    rw [history_snoc]
    generalize history w acts = s at ih
    by_cases ha : a = .build
    · subst ha
      have hb : (Act.build.apply s) = ⟨s.world, (s.cargo.build s.world).2,
        (s.world, (s.cargo.build s.world).1) :: s.built⟩ := rfl
      rw [hb]
      rcases build_cases s.cargo s.world with e | ⟨v, f, e1, _, e2⟩
      · rw [e]
        refine ⟨?_, .inl rfl, ih.2⟩
        intro v r f hl
        cases hl
        exact ⟨_, _, List.mem_cons_self, rfl, rfl⟩
      · rw [e2]
        obtain ⟨w', v', h1, h2, h3⟩ := ih.1 _ _ _ e1
        refine ⟨?_, .inr ⟨w', v', h1, h2, h3.symm⟩, ih.2⟩
        intro v r f hl
        obtain ⟨w', v', h1, h2, h3⟩ := ih.1 _ _ _ hl
        exact ⟨w', v', List.mem_cons_of_mem _ h1, h2, h3⟩
    · have hb := built_of (s := s) ha
      refine ⟨?_, by rw [hb]; exact ih.2⟩
      intro v r f hl
      rw [hb]
      rcases last_of (s := s) ha with e | e
      · rw [e] at hl
        exact ih.1 v r f hl
      · rw [e] at hl
        cases hl

theorem Honest.split {b : List (World × Text)} (h : Honest b) {later earlier : List (World × Text)} {w : World} {v : Text}
    (e : b = later ++ (w, v) :: earlier) :
    v = w.version ∨ ∃ w' v', (w', v') ∈ earlier ∧ v = w'.version ∧ w'.revVar = w.revVar := by
  subst e
  induction later with
  | nil => exact h.1
  | cons p l ih => exact ih h.2

/-- **C108, partial.**  Whatever is done, a build reports a version that was right when it, or an earlier one, was made. -/
theorem version_was_right_partial (w : World) (acts : List Act) {later earlier : List (World × Text)} {u : World} {v : Text}
    (h : (history w acts).built = later ++ (u, v) :: earlier) :
    v = u.version ∨ ∃ u' v', (u', v') ∈ earlier ∧ v = u'.version :=
  match (honest_history w acts).2.split h with
  | .inl e => .inl e
  | .inr ⟨u', v', h1, h2, _⟩ => .inr ⟨u', v', h1, h2⟩

/-- **C108, partial.**  A version given in `MOVE_LANGUAGE_SERVER_REV` is reported by every build made with it. -/
theorem given_version_is_reported (w : World) (acts : List Act) {u : World} {v r : Text}
    (h : (u, v) ∈ (history w acts).built) (hr : u.revVar = some r) : v = r := by
  obtain ⟨later, earlier, e⟩ := List.append_of_mem h
  rcases (honest_history w acts).2.split e with e | ⟨u', v', _, e, er⟩
  · simp only [e, World.version, rev, hr]
  · simp only [e, World.version, rev, er, hr]

theorem places_stay (w : World) (acts : List Act) :
    (history w acts).world.repo = w.repo ∧ (history w acts).world.package = w.package := by
  induction acts using snoc_induction with
  | hn => exact ⟨rfl, rfl⟩
  | hs acts a ih =>
    rw [history_snoc]
    cases a with
    | commit c =>
      simp only [Act.apply]
      split <;> exact ih
    | _ => exact ih

theorem watches_stay (w : World) (acts : List Act) : (history w acts).world.watches = w.watches := by
  obtain ⟨h1, h2⟩ := places_stay w acts
  unfold World.watches
  rw [h1, h2]

/-- A commit on a branch that has not been noticed yet. -/
def Unnoticed (w : World) (acts : List Act) : Prop :=
  ∃ before h between, acts = before ++ .commit h :: between ∧ OnBranch w before ∧ ∀ a ∈ between, ¬ a.Noticed

theorem Unnoticed.snoc {w : World} {acts : List Act} (h : Unnoticed w acts) {a : Act} (ha : ¬ a.Noticed) :
    Unnoticed w (acts ++ [a]) := by
  obtain ⟨before, c, between, h1, h2, h3⟩ := h
  refine ⟨before, c, between ++ [a], by rw [h1]; simp, h2, ?_⟩
  intro x hx
  rcases List.mem_append.1 hx with hx | hx
  · exact h3 x hx
  · rw [List.mem_singleton] at hx
    rw [hx]
    exact ha

/-- What cargo remembers is up to date, unless it knows that it is not, or there is a commit it has not noticed. -/
def UpToDate (w : World) (acts : List Act) : Prop :=
  ∀ v r f, (history w acts).cargo.last = some (v, r, f) → f = some w.repo ∧
    ((history w acts).cargo.written = true ∨ Unnoticed w acts ∨
      ∃ date channel, v = rev r (history w acts).world.headCommit date channel)

theorem upToDate (w : World) (hw : w.watches = some w.repo) (acts : List Act) : UpToDate w acts := by
  induction acts using snoc_induction with
  | hn => intro v r f h; cases h
  | hs acts a ih =>
    have hrepo := (places_stay w acts).1
    have hwat := (watches_stay w acts).trans hw
    intro v r f
    rw [history_snoc]
    intro h
    have carry : (history w acts).cargo.last = some (v, r, f) → ¬ a.Noticed →
        (a.apply (history w acts)).cargo.written = (history w acts).cargo.written →
        (a.apply (history w acts)).world.headCommit = (history w acts).world.headCommit →
        f = some w.repo ∧ ((a.apply (history w acts)).cargo.written = true ∨ Unnoticed w (acts ++ [a]) ∨
          ∃ date channel, v = rev r (a.apply (history w acts)).world.headCommit date channel) := by
      intro hl hn hwr hh
      obtain ⟨h1, h2⟩ := ih v r f hl
      refine ⟨h1, ?_⟩
      rw [hwr, hh]
      rcases h2 with h2 | h2 | h2
      · exact .inl h2
      · exact .inr (.inl (h2.snoc hn))
      · exact .inr (.inr h2)
    cases a with
    | commit c =>
      cases hd : (history w acts).world.head with
      | branch b =>
        have hl : (history w acts).cargo.last = some (v, r, f) := by
          simp only [Act.apply, hd] at h
          exact h
        refine ⟨(ih v r f hl).1, .inr (.inl ?_)⟩
        exact ⟨acts, c, [], rfl, ⟨b, hd⟩, by simp⟩
      | commit o =>
        have hl : (history w acts).cargo.last = some (v, r, f) := by
          simp only [Act.apply, hd] at h
          exact h
        refine ⟨(ih v r f hl).1, .inl ?_⟩
        simp only [Act.apply, hd]
    | switch b => exact ⟨(ih v r f h).1, .inl rfl⟩
    | detach b => exact ⟨(ih v r f h).1, .inl rfl⟩
    | setRev x => exact carry h id rfl rfl
    | setChannel x => exact carry h id rfl rfl
    | setDate x => exact carry h id rfl rfl
    | clean => cases h
    | build =>
      have hb : (Act.build.apply (history w acts)).cargo = ((history w acts).cargo.build (history w acts).world).2 := rfl
      rw [hb] at h
      rcases build_cases (history w acts).cargo (history w acts).world with e | ⟨v', f', e1, e3, e2⟩
      · rw [e] at h
        cases h
        exact ⟨hwat, .inr (.inr ⟨_, _, rfl⟩)⟩
      · rw [e2] at h
        exact carry h id (by rw [hb, e2]) rfl

/-- **C108, partial.**  If the package lies in a repository that is not in the root directory, every build reports the
commit that is checked out, up to the date and the channel, provided that something cargo notices happens between a
commit on a branch and the next build. -/
theorem version_is_right_partial (w : World) (hr : w.repo ≠ []) (hp : ∃ inner, w.package = inner ++ w.repo)
    (acts : List Act) (hn : CommitsAreNoticed w acts) {u : World} {v : Text} (h : (u, v) ∈ (history w acts).built) :
    ∃ date channel, v = rev u.revVar u.headCommit date channel := by
  have hw : w.watches = some w.repo := (watches_repo_iff w).2 ⟨hr, hp⟩
  induction acts using snoc_induction with
  | hn => cases h
  | hs acts a ih =>
    have hn' : CommitsAreNoticed w acts := fun b c m e he => hn b c m (e ++ [a]) (by rw [he]; simp)
    rw [history_snoc] at h
    by_cases ha : a = .build
    · subst ha
      have hb : (Act.build.apply (history w acts)).built = ((history w acts).world,
        ((history w acts).cargo.build (history w acts).world).1) :: (history w acts).built := rfl
      rw [hb] at h
      rcases List.mem_cons.1 h with h | h
      · rcases build_cases (history w acts).cargo (history w acts).world with e | ⟨v', f', e1, e3, e2⟩
        · rw [e] at h
          cases h
          exact ⟨_, _, rfl⟩
        · rw [e2] at h
          cases h
          obtain ⟨g1, g2⟩ := upToDate w hw acts _ _ _ e1
          rcases g2 with g2 | g2 | g2
          · exact absurd (g1.trans (by rw [(places_stay w acts).1])) (e3 g2)
          · obtain ⟨before, c, between, q1, q2, q3⟩ := g2
            obtain ⟨x, hx, hx2⟩ := hn before c between [] (by rw [q1]; simp) q2
            exact absurd hx2 (q3 x hx)
          · exact g2
      · exact ih hn' h
    · rw [built_of ha] at h
      exact ih hn' h

/-! ### Where the code violates the property -/

/-- Nothing of what is done here makes cargo run the script: commits on the branch, other channels, other days. -/
def Act.Quiet : Act → Prop
  | .commit _ => True
  | .setChannel _ => True
  | .setDate _ => True
  | .build => True
  | _ => False

/-- The last version built is still reported. -/
structure Stuck (v : Text) (old : List (World × Text)) (s : State) : Prop where
  last : ∃ f, s.cargo.last = some (v, s.world.revVar, f) ∧ (s.cargo.written = true → f ≠ some s.world.repo)
  branch : ∃ b, s.world.head = .branch b
  built : ∃ new, s.built = new ++ old ∧ ∀ p ∈ new, p.2 = v

theorem Stuck.apply {v : Text} {old : List (World × Text)} {s : State} (h : Stuck v old s) {a : Act} (ha : a.Quiet) :
    Stuck v old (a.apply s) := by
  obtain ⟨f, h1, h2⟩ := h.last
  obtain ⟨b, hb⟩ := h.branch
  cases a with
  | commit c =>
    simp only [Act.apply, hb]
    exact ⟨⟨f, h1, h2⟩, ⟨b, rfl⟩, h.built⟩
  | setChannel c => exact ⟨⟨f, h1, h2⟩, ⟨b, hb⟩, h.built⟩
  | setDate c => exact ⟨⟨f, h1, h2⟩, ⟨b, hb⟩, h.built⟩
  | build =>
    have e : s.cargo.build s.world = (v, s.cargo) := by
      unfold Cargo.build
      rw [h1]
      simp only [ne_eq, not_true_eq_false, false_or]
      rw [if_neg]
      rintro ⟨q1, q2⟩
      exact h2 q1 q2
    have hs : Act.build.apply s = ⟨s.world, (s.cargo.build s.world).2, (s.world, (s.cargo.build s.world).1) :: s.built⟩ := rfl
    rw [hs, e]
    obtain ⟨new, n1, n2⟩ := h.built
    refine ⟨⟨f, h1, h2⟩, ⟨b, hb⟩, (s.world, v) :: new, by rw [n1]; rfl, ?_⟩
    intro p hp
    rcases List.mem_cons.1 hp with rfl | hp
    · rfl
    · exact n2 p hp
  | _ => exact absurd ha id

/-- Once a build has been made on a branch, commits on it, however many, go unnoticed: all further builds report the version of that
build, and so the commit that was checked out then. -/
theorem commits_go_unnoticed (w : World) (acts more : List Act) (hb : OnBranch w acts) (hq : ∀ a ∈ more, a.Quiet) :
    ∃ v new, (history w (acts ++ [.build])).built.head? = some ((history w acts).world, v) ∧
      (history w (acts ++ [.build] ++ more)).built = new ++ (history w (acts ++ [.build])).built ∧
      ∀ p ∈ new, p.2 = v := by
  have hs : history w (acts ++ [.build]) = ⟨(history w acts).world, ((history w acts).cargo.build (history w acts).world).2,
      ((history w acts).world, ((history w acts).cargo.build (history w acts).world).1) :: (history w acts).built⟩ :=
    history_snoc w acts .build
  have key : ∀ (more : List Act), (∀ a ∈ more, a.Quiet) → ∀ v old s, Stuck v old s → Stuck v old (more.foldl Act.apply s) := by
    intro more
    induction more with
    | nil => intro _ v old s h; exact h
    | cons a more ih =>
      intro hq v old s h
      exact ih (fun x hx => hq x (List.mem_cons_of_mem _ hx)) v old _ (h.apply (hq a List.mem_cons_self))
  have start : Stuck ((history w acts).cargo.build (history w acts).world).1 (history w (acts ++ [.build])).built
      (history w (acts ++ [.build])) := by
    rw [hs]
    refine ⟨?_, hb, [], rfl, by simp⟩
    rcases build_cases (history w acts).cargo (history w acts).world with e | ⟨v', f', e1, e3, e2⟩
    · rw [e]
      exact ⟨_, rfl, fun h => by cases h⟩
    · rw [e2]
      exact ⟨f', e1, e3⟩
  obtain ⟨_, _, new, n1, n2⟩ := key more hq _ _ _ start
  refine ⟨_, new, by rw [hs]; rfl, ?_, n2⟩
  rw [← n1]
  unfold history
  rw [List.foldl_append (l' := more)]

/-- The repository is in `/home/move` and the package in `/home/move/crates/server`. -/
def sample : World where
  branches := fun b => if b = "main".toList then some "c0ffee".toList else none
  head := .branch "main".toList
  revVar := none
  channelVar := none
  date := some "2021-11-01".toList
  repo := ["move".toList, "home".toList]
  package := ["server".toList, "crates".toList, "move".toList, "home".toList]

/-- **C108 is violated**: a build made after a commit on the branch reports the commit before. -/
theorem stale_after_commit : ∃ (acts : List Act) (u : World) (v : Text), sample.watches = some sample.repo ∧
    (history sample acts).built.head? = some (u, v) ∧ u.headCommit = some "beef".toList ∧
    firstWord v = "c0ffee".toList :=
  ⟨[.build, .commit "beef".toList, .build], _, _, by decide, rfl, by decide, by decide⟩

/-- The same with the channel: a build for a release can be called a development version. -/
theorem stale_channel : ∃ (acts : List Act) (u : World) (v : Text), (history sample acts).built.head? = some (u, v) ∧
    u.channelVar = some "stable".toList ∧ v = "c0ffee 2021-11-01 dev".toList :=
  ⟨[.build, .setChannel (some "stable".toList), .build], _, _, rfl, rfl, by decide⟩

/-- A repository in the root directory is not watched: a build made after switching to a branch reports the commit before. -/
theorem root_is_not_watched : ∃ (w : World) (acts : List Act) (u : World) (v : Text), w.repo = [] ∧ w.watches = none ∧
    (history w acts).built.head? = some (u, v) ∧ u.headCommit = some "beef".toList ∧ firstWord v = "c0ffee".toList :=
  ⟨{ sample with repo := [] }, [.build, .detach "beef".toList, .build], _, _, rfl, by decide, rfl, by decide, by decide⟩

/-! ### Witnesses -/

/-- Witness of `version_names_commit`. -/
example : sample.revVar = none ∧ sample.headCommit = some "c0ffee".toList ∧ ' ' ∉ "c0ffee".toList ∧
    sample.version = "c0ffee 2021-11-01 dev".toList := by decide

/-- Witness of `given_version_is_reported`. -/
example : ((history sample [.build, .setRev (some "1.0".toList), .build, .setRev none, .build]).built.map fun p => (p.1.revVar, p.2)) =
    [(none, "c0ffee 2021-11-01 dev".toList), (some "1.0".toList, "1.0".toList), (none, "c0ffee 2021-11-01 dev".toList)] := by decide

/-- Witness of `version_is_right_partial`. -/
example : sample.watches = some sample.repo ∧
    CommitsAreNoticed sample [.build, .detach "beef".toList, .commit "feed".toList, .build] ∧
    ((history sample [.build, .detach "beef".toList, .commit "feed".toList, .build]).built.map fun p => (p.1.headCommit, firstWord p.2)) =
      [(some "feed".toList, "feed".toList), (some "c0ffee".toList, "c0ffee".toList)] := by
  refine ⟨by decide, ?_, by decide⟩
  intro before h between after e hb
  match before, e with
  | [], e => cases e
  | [_], e => cases e
  | [_, _], e =>
    simp only [List.cons_append, List.nil_append, List.cons.injEq] at e
    obtain ⟨rfl, rfl, _⟩ := e
    obtain ⟨b, hb⟩ := hb
    cases hb
  | [_, _, _], e => cases e
  | _ :: _ :: _ :: _ :: [], e => cases e
  | _ :: _ :: _ :: _ :: _ :: _, e => cases e

/-- Witness of `commits_go_unnoticed`. -/
example : OnBranch sample [] ∧ (∀ a ∈ [Act.commit "beef".toList, .build, .commit "feed".toList, .build], a.Quiet) :=
  ⟨⟨_, rfl⟩, by simp [Act.Quiet]⟩

end Verif.Build
