import Verif.Stdx.Model

set_option autoImplicit false

/-!
C50, case conversion: `to_lower_snake_case`, `to_upper_snake_case`, `to_pascal_case`.
-/

namespace Verif.Stdx

/-! Specification: what happens to a character depends on it and on the one before it. -/

namespace Spec

/-- The characters of a text, each with the one before it. -/
def withPrevious (s : Text) : List (Option Char × Char) := (none :: s.map some).zip s

/-- A word begins at an upper-case letter, unless it is the first character or the word has just been
separated by an underscore. -/
def beginsWord (x : Option Char × Char) : Bool := isUpper x.2 && x.1.isSome && x.1 != some '_'

/-- Snake case: the letters in the new case, with an underscore before every further word. -/
def snake (newCase : Char → Char) (s : Text) : Text :=
  (withPrevious s).flatMap fun x => if beginsWord x then ['_', newCase x.2] else [newCase x.2]

/-- Pascal case: the underscores go; a letter at the start or after an underscore becomes upper case,
every other letter lower case. -/
def pascal (s : Text) : Text :=
  ((withPrevious s).filter fun x => x.2 != '_').map fun x =>
    if x.1 = none ∨ x.1 = some '_' then toUpper x.2 else toLower x.2

/-- A name in pascal case: no underscores, and it does not begin with a lower-case letter. -/
def PascalName (s : Text) : Prop := '_' ∉ s ∧ ∀ c, s.head? = some c → isLower c = false

end Spec

/-! Characters. -/

theorem isUpper_iff (c : Char) : isUpper c = true ↔ 65 ≤ c.toNat ∧ c.toNat ≤ 90 := by simp [isUpper]
theorem isLower_iff (c : Char) : isLower c = true ↔ 97 ≤ c.toNat ∧ c.toNat ≤ 122 := by simp [isLower]

theorem toNat_ofNat (n : Nat) (h : n < 0xd800) : (Char.ofNat n).toNat = n := by
  have hv : n.isValidChar := Or.inl h
  simp only [Char.ofNat, hv, dif_pos]
  rfl

theorem eq_of_toNat {c d : Char} (h : c.toNat = d.toNat) : c = d := by
  rw [← Char.ofNat_toNat c, ← Char.ofNat_toNat d, h]

theorem toLower_upper {c : Char} (h : isUpper c = true) : (toLower c).toNat = c.toNat + 32 := by
  have := (isUpper_iff c).1 h
  simp only [toLower, h, if_true]
  exact toNat_ofNat _ (by omega)

theorem toLower_other {c : Char} (h : isUpper c = false) : toLower c = c := by simp [toLower, h]

theorem toUpper_lower {c : Char} (h : isLower c = true) : (toUpper c).toNat = c.toNat - 32 := by
  have := (isLower_iff c).1 h
  simp only [toUpper, h, if_true]
  exact toNat_ofNat _ (by omega)

theorem toUpper_other {c : Char} (h : isLower c = false) : toUpper c = c := by simp [toUpper, h]

theorem isUpper_toLower (c : Char) : isUpper (toLower c) = false := by
  cases h : isUpper c with
  | false => rw [toLower_other h, h]
  | true =>
    have h1 := toLower_upper h
    have h2 := (isUpper_iff c).1 h
    cases h3 : isUpper (toLower c) with
    | false => rfl
    | true => have := (isUpper_iff _).1 h3; omega

theorem isLower_toUpper (c : Char) : isLower (toUpper c) = false := by
  cases h : isLower c with
  | false => rw [toUpper_other h, h]
  | true =>
    have h1 := toUpper_lower h
    have h2 := (isLower_iff c).1 h
    cases h3 : isLower (toUpper c) with
    | false => rfl
    | true => have := (isLower_iff _).1 h3; omega

theorem underscore_toNat : '_'.toNat = 95 := rfl

theorem toLower_eq_underscore (c : Char) : toLower c = '_' ↔ c = '_' := by
  cases h : isUpper c with
  | false => rw [toLower_other h]
  | true =>
    have h1 := toLower_upper h
    have h2 := (isUpper_iff c).1 h
    constructor
    · intro e; rw [e, underscore_toNat] at h1; omega
    · intro e; rw [e, underscore_toNat] at h2; omega

theorem toUpper_eq_underscore (c : Char) : toUpper c = '_' ↔ c = '_' := by
  cases h : isLower c with
  | false => rw [toUpper_other h]
  | true =>
    have h1 := toUpper_lower h
    have h2 := (isLower_iff c).1 h
    constructor
    · intro e; rw [e, underscore_toNat] at h1; omega
    · intro e; rw [e, underscore_toNat] at h2; omega

/-- Upper-casing the lower-cased letter gives the letter back, unless it was lower case. -/
theorem toUpper_toLower {c : Char} (h : isLower c = false) : toUpper (toLower c) = c := by
  cases hu : isUpper c with
  | false => rw [toLower_other hu, toUpper_other h]
  | true =>
    have h1 := toLower_upper hu
    have h2 := (isUpper_iff c).1 hu
    have h3 : isLower (toLower c) = true := (isLower_iff _).2 (by omega)
    apply eq_of_toNat
    rw [toUpper_lower h3]; omega

theorem toLower_toLower (c : Char) : toLower (toLower c) = toLower c :=
  toLower_other (isUpper_toLower c)

theorem toLower_toUpper {c : Char} (h : isUpper c = false) : toLower (toUpper c) = c := by
  cases hl : isLower c with
  | false => rw [toUpper_other hl, toLower_other h]
  | true =>
    have h1 := toUpper_lower hl
    have h2 := (isLower_iff c).1 hl
    have h3 : isUpper (toUpper c) = true := (isUpper_iff _).2 (by omega)
    apply eq_of_toNat
    rw [toLower_upper h3]; omega

theorem toUpper_toUpper (c : Char) : toUpper (toUpper c) = toUpper c :=
  toUpper_other (isLower_toUpper c)

/-! The loops against the specification. -/

theorem withPrevious_go (p : Option Char) (c : Char) (cs : Text) :
    (p :: (c :: cs).map some).zip (c :: cs) = (p, c) :: (some c :: cs.map some).zip cs := by
  simp

theorem snakeLoop_eq (f : Char → Char) (hf : ∀ c, f c = '_' ↔ c = '_') (s : Text) :
    ∀ (p : Option Char) (buf : Text), buf.getLast? = p.map f →
      snakeLoop f s p.isSome buf = buf ++ ((p :: s.map some).zip s).flatMap fun x =>
        if Spec.beginsWord x then ['_', f x.2] else [f x.2] := by
  induction s with
  | nil => intro p buf _; simp [snakeLoop]
  | cons c cs ih =>
    intro p buf hb
    rw [withPrevious_go]
    simp only [snakeLoop, List.flatMap_cons]
    have key : (if (isUpper c && p.isSome) = true then
          (if buf.getLast? ≠ some '_' then buf ++ ['_'] else buf) else buf) ++ [f c]
        = buf ++ (if Spec.beginsWord (p, c) then ['_', f c] else [f c]) := by
      cases hu : isUpper c <;> cases p with
      | none => simp [Spec.beginsWord]
      | some q =>
        by_cases hq : q = '_'
        · have : f q = '_' := (hf q).2 hq
          simp_all [Spec.beginsWord]
        · have : f q ≠ '_' := fun h => hq ((hf q).1 h)
          simp_all [Spec.beginsWord]
    rw [key]
    have := ih (some c) (buf ++ (if Spec.beginsWord (p, c) then ['_', f c] else [f c]))
      (by split <;> simp)
    simp only [Option.isSome_some] at this
    rw [this, List.append_assoc]

/-- Snake case inserts an underscore exactly where a further word begins and changes nothing else but
the case. -/
theorem snake_case (s : Text) :
    toLowerSnakeCase s = Spec.snake toLower s ∧ toUpperSnakeCase s = Spec.snake toUpper s := by
  constructor
  · have := snakeLoop_eq toLower toLower_eq_underscore s none [] rfl
    simpa [toLowerSnakeCase, toSnakeCase, Spec.snake, Spec.withPrevious] using this
  · have := snakeLoop_eq toUpper toUpper_eq_underscore s none [] rfl
    simpa [toUpperSnakeCase, toSnakeCase, Spec.snake, Spec.withPrevious] using this

example : toLowerSnakeCase "Weird_CaseName".toList = "weird_case_name".toList := by decide

theorem pascalLoop_eq (s : Text) : ∀ (p : Option Char) (buf : Text),
    pascalLoop s (decide (p = none ∨ p = some '_')) buf = buf ++
      ((((p :: s.map some).zip s).filter fun x => x.2 != '_').map fun x =>
        if x.1 = none ∨ x.1 = some '_' then toUpper x.2 else toLower x.2) := by
  induction s with
  | nil => intro p buf; simp [pascalLoop]
  | cons c cs ih =>
    intro p buf
    rw [withPrevious_go]
    have hi := ih (some c)
    by_cases hc : c = '_'
    · subst hc
      simp only [pascalLoop, if_true]
      have : decide (some '_' = none ∨ some '_' = some '_') = true := by decide
      rw [this] at hi
      rw [hi]
      simp
    · have hd : decide (some c = none ∨ some c = some '_') = false := by simp [hc]
      rw [hd] at hi
      by_cases hp : p = none ∨ p = some '_'
      · have hp' : decide (p = none ∨ p = some '_') = true := by simpa using hp
        simp only [pascalLoop, hc, if_false, hp', if_true]
        rw [hi]
        simp [hc, hp]
      · have hp' : decide (p = none ∨ p = some '_') = false := by simpa using hp
        simp only [pascalLoop, hc, if_false, hp']
        rw [show (if (false : Bool) = true then pascalLoop cs false (buf ++ [toUpper c])
          else pascalLoop cs false (buf ++ [toLower c])) = pascalLoop cs false (buf ++ [toLower c]) from rfl]
        rw [hi]
        simp [hc, hp]

/-- Pascal case drops the underscores and changes the case of the other characters, upper case exactly
at the start and after an underscore. -/
theorem pascal_case (s : Text) : toPascalCase s = Spec.pascal s := by
  have := pascalLoop_eq s none []
  simpa [toPascalCase, Spec.pascal, Spec.withPrevious] using this

example : toPascalCase "weird__case_NAME".toList = "WeirdCaseName".toList := by decide

/-! Consequences. -/

theorem mem_snake {f : Char → Char} {s : Text} {c : Char} (h : c ∈ Spec.snake f s) :
    c = '_' ∨ ∃ d ∈ s, c = f d := by
  simp only [Spec.snake, List.mem_flatMap] at h
  obtain ⟨⟨p, d⟩, hx, hc⟩ := h
  have hd : d ∈ s := (List.of_mem_zip hx).2
  split at hc <;> simp at hc
  · rcases hc with hc | hc
    · exact .inl hc
    · exact .inr ⟨d, hd, hc⟩
  · exact .inr ⟨d, hd, hc⟩

/-- Lower snake case has no upper-case letters and upper snake case no lower-case letters. -/
theorem snake_case_is_in_case (s : Text) :
    (∀ c ∈ toLowerSnakeCase s, isUpper c = false) ∧ (∀ c ∈ toUpperSnakeCase s, isLower c = false) := by
  rw [(snake_case s).1, (snake_case s).2]
  constructor
  · intro c hc
    rcases mem_snake hc with rfl | ⟨d, _, rfl⟩
    · decide
    · exact isUpper_toLower d
  · intro c hc
    rcases mem_snake hc with rfl | ⟨d, _, rfl⟩
    · decide
    · exact isLower_toUpper d

example : toUpperSnakeCase "SourceFile".toList = "SOURCE_FILE".toList := by decide

/-- Pascal case has no underscores. -/
theorem pascal_case_has_no_underscore (s : Text) : '_' ∉ toPascalCase s := by
  rw [pascal_case, Spec.pascal]
  intro h
  obtain ⟨⟨p, c⟩, hx, hc⟩ := List.mem_map.1 h
  have hne : c ≠ '_' := by simpa using (List.mem_filter.1 hx).2
  split at hc
  · exact hne ((toUpper_eq_underscore c).1 hc)
  · exact hne ((toLower_eq_underscore c).1 hc)

/-- Converting to lower snake case twice is the same as once. -/
theorem lower_snake_case_idempotent (s : Text) :
    toLowerSnakeCase (toLowerSnakeCase s) = toLowerSnakeCase s := by
  have h := (snake_case_is_in_case s).1
  generalize toLowerSnakeCase s = t at h
  rw [(snake_case t).1, Spec.snake]
  have : ∀ x ∈ Spec.withPrevious t,
      (if Spec.beginsWord x then ['_', toLower x.2] else [toLower x.2]) = [x.2] := by
    intro x hx
    have hu := h x.2 (List.of_mem_zip hx).2
    simp [Spec.beginsWord, hu, toLower_other hu]
  have hz : (Spec.withPrevious t).map Prod.snd = t := by
    simp only [Spec.withPrevious]
    apply List.map_snd_zip
    simp
  conv => rhs; rw [← hz]
  clear hz
  generalize Spec.withPrevious t = z at this
  induction z with
  | nil => rfl
  | cons a z ih =>
    rw [List.flatMap_cons, this a (by simp), ih fun x hx => this x (by simp [hx])]
    rfl

/-- Upper snake case is not: the second conversion separates the letters. -/
theorem upper_snake_case_not_idempotent :
    ∃ s, toUpperSnakeCase (toUpperSnakeCase s) ≠ toUpperSnakeCase s := ⟨"Ab".toList, by decide⟩

/-! Round trip. -/

theorem pascal_snake_go (f : Char → Char) (hf : ∀ c, f c = '_' ↔ c = '_')
    (hup : ∀ c, isUpper c = true → toUpper (f c) = c)
    (hlo : ∀ c, isUpper c = false → toLower (f c) = c)
    (s : Text) (hs : '_' ∉ s) : ∀ (p : Char) (buf : Text), p ≠ '_' →
    pascalLoop ((((some p) :: s.map some).zip s).flatMap fun x =>
        if Spec.beginsWord x then ['_', f x.2] else [f x.2]) false buf = buf ++ s := by
  induction s with
  | nil => intro p buf _; simp [pascalLoop]
  | cons c cs ih =>
    intro p buf hp
    have hc : c ≠ '_' := fun h => hs (by simp [h])
    have hcs : '_' ∉ cs := fun h => hs (by simp [h])
    have hfc : f c ≠ '_' := fun h => hc ((hf c).1 h)
    rw [withPrevious_go]
    simp only [List.flatMap_cons]
    cases hu : isUpper c with
    | true =>
      have : Spec.beginsWord (some p, c) = true := by simp [Spec.beginsWord, hu, hp]
      simp only [this, if_true, List.cons_append, List.nil_append, pascalLoop, hfc, if_false]
      rw [ih hcs c _ hc, hup c hu]; simp
    | false =>
      have : Spec.beginsWord (some p, c) = false := by simp [Spec.beginsWord, hu]
      simp only [this, List.cons_append, List.nil_append, pascalLoop, hfc, if_false, Bool.false_eq_true]
      rw [ih hcs c _ hc, hlo c hu]; simp

theorem pascal_of_snake_aux (f : Char → Char) (hf : ∀ c, f c = '_' ↔ c = '_')
    (hup : ∀ c, isLower c = false → toUpper (f c) = c)
    (hlo : ∀ c, isUpper c = false → toLower (f c) = c)
    (s : Text) (hs : Spec.PascalName s) : toPascalCase (Spec.snake f s) = s := by
  obtain ⟨h1, h2⟩ := hs
  cases s with
  | nil => rfl
  | cons c cs =>
    have hc : c ≠ '_' := fun h => h1 (by simp [h])
    have hfc : f c ≠ '_' := fun h => hc ((hf c).1 h)
    have hup' : ∀ c, isUpper c = true → toUpper (f c) = c := by
      intro c hu
      apply hup
      cases hl : isLower c with
      | false => rfl
      | true => have := (isUpper_iff c).1 hu; have := (isLower_iff c).1 hl; omega
    simp only [toPascalCase, Spec.snake, Spec.withPrevious]
    rw [withPrevious_go]
    simp only [List.flatMap_cons]
    have : Spec.beginsWord (none, c) = false := by simp [Spec.beginsWord]
    simp only [this, List.cons_append, List.nil_append, pascalLoop, hfc, if_false, Bool.false_eq_true, if_true]
    rw [pascal_snake_go f hf hup' hlo cs (fun h => h1 (by simp [h])) c _ hc, hup c (h2 c rfl)]
    rfl

/-- Converting a name in pascal case to either snake case and back gives the name: different class
names get different accessors and different syntax kinds. -/
theorem pascal_of_snake (s : Text) (hs : Spec.PascalName s) :
    toPascalCase (toLowerSnakeCase s) = s ∧ toPascalCase (toUpperSnakeCase s) = s := by
  rw [(snake_case s).1, (snake_case s).2]
  refine ⟨pascal_of_snake_aux toLower toLower_eq_underscore (fun c h => toUpper_toLower h)
    (fun c h => ?_) s hs, pascal_of_snake_aux toUpper toUpper_eq_underscore (fun c h => ?_)
    (fun c h => toLower_toUpper h) s hs⟩
  · rw [toLower_toLower, toLower_other h]
  · rw [toUpper_toUpper, toUpper_other h]

/-- Different names in pascal case stay different in snake case. -/
theorem snake_case_injective (s t : Text) (hs : Spec.PascalName s) (ht : Spec.PascalName t)
    (h : toLowerSnakeCase s = toLowerSnakeCase t ∨ toUpperSnakeCase s = toUpperSnakeCase t) : s = t := by
  rcases h with h | h
  · rw [← (pascal_of_snake s hs).1, ← (pascal_of_snake t ht).1, h]
  · rw [← (pascal_of_snake s hs).2, ← (pascal_of_snake t ht).2, h]

example : Spec.PascalName "GenericParamList".toList := ⟨by decide, by decide⟩
example : Spec.PascalName "GenericParamList2".toList ∧
    toLowerSnakeCase "GenericParamList2".toList = "generic_param_list2".toList :=
  ⟨⟨by decide, by decide⟩, by decide⟩

/-- Without the restriction they may collide. -/
theorem snake_case_collides : ∃ s t, s ≠ t ∧ toLowerSnakeCase s = toLowerSnakeCase t :=
  ⟨"aB".toList, "a_b".toList, by decide, by decide⟩

/-- C50: replacing a character by a text puts the text between the same pieces. -/
theorem replace_pieces (pieces : List Text) (frm : Char) (to : Text) (h : ∀ p ∈ pieces, frm ∉ p) :
    replace (List.intercalate [frm] pieces) frm to = List.intercalate to pieces := by
  have hpiece : ∀ p : Text, frm ∉ p → (p.flatMap fun c => if c = frm then to else [c]) = p := by
    intro p
    induction p with
    | nil => intro _; rfl
    | cons c p ih =>
      intro hp
      simp only [List.mem_cons, not_or] at hp
      rw [List.flatMap_cons, if_neg (fun e => hp.1 e.symm), ih hp.2]; rfl
  have hall : ((List.intercalate [frm] pieces).flatMap fun c => if c = frm then to else [c]) = List.intercalate to pieces := by
    induction pieces with
    | nil => rfl
    | cons p ps ih =>
      have ih := ih fun q hq => h q (List.mem_cons_of_mem _ hq)
      have hp := hpiece p (h p List.mem_cons_self)
      cases ps with
      | nil => simpa [List.intercalate, List.intersperse] using hp
      | cons q qs =>
        have e : ∀ sep : Text, List.intercalate sep (p :: q :: qs) = p ++ (sep ++ List.intercalate sep (q :: qs)) := by
          intro sep; simp [List.intercalate, List.intersperse]
        rw [e, e, List.flatMap_append, List.flatMap_append, hp, ih]
        simp
  unfold replace
  split
  · exact hall
  · next hc =>
    rw [← hall]
    refine (hpiece _ fun hm => hc ?_).symm
    simpa using hm

example : replace "a-b--c".toList '-' "::".toList = "a::b::::c".toList := by decide +kernel

end Verif.Stdx
