import Verif.Editor.SelectorModel

set_option autoImplicit false

/-!
C96: the server of a folder is told of the Move documents of the folder.
-/

namespace Verif.Editor.Selector

/-! ### Specification -/

/-- The path lies in the folder. -/
def InFolder (folder path : Text) : Prop :=
  (folder = ['/'] ∧ ∃ rest, path = '/' :: rest) ∨ ∃ rest, path = folder ++ '/' :: rest

/-- The document is a Move file. -/
def IsMove (d : Document) : Prop := d.scheme = "file".toList ∧ d.languageId = "move".toList

/-- The path has none of the characters that are special in a pattern. -/
def Plain (folder : Text) : Prop := ∀ c, c ∈ folder → c ∉ "*?[]{}".toList

instance (folder : Text) : Decidable (Plain folder) := by unfold Plain; infer_instance

/-! ### The regular expression of a plain folder -/

/-- A character of a plain path. -/
def toRe (c : Char) : Re := if c = '/' then .slash else .lit c

theorem segment_plain (s : Text) (h : Plain s) : segment none s = some (s.map .lit) := by
  induction s with
  | nil => rfl
  | cons c s ih =>
    have hc := h c (List.mem_cons_self ..)
    have hc : c ≠ '*' ∧ c ≠ '?' ∧ c ≠ '[' ∧ c ≠ ']' ∧ c ≠ '{' ∧ c ≠ '}' := by simpa using hc
    rw [segment, if_neg (by simp [hc]), if_neg hc.2.2.1, if_neg hc.1, if_neg hc.2.1,
      ih (fun x hx => h x (List.mem_cons_of_mem _ hx))]
    rfl

theorem plain_not_stars (s : Text) (h : Plain s) : s ≠ ['*', '*'] := by
  rintro rfl
  exact h '*' (List.mem_cons_self ..) (by decide)

theorem split_cons (acc t : Text) : ∃ s ss, splitSegments acc t = s :: ss := by
  induction t generalizing acc with
  | nil => exact ⟨_, _, rfl⟩
  | cons c t ih =>
    rw [splitSegments]
    split
    · exact ⟨_, _, rfl⟩
    · exact ih _

theorem compile_plain (folder acc : Text) (hf : Plain folder) (ha : Plain acc) (hs : '/' ∉ acc) :
    compile (splitSegments acc (folder ++ "/**/*".toList)) =
      some (acc.map .lit ++ (folder.map toRe ++ [.slash, .stars, .many])) := by
  induction folder generalizing acc with
  | nil =>
    have : splitSegments acc ([] ++ "/**/*".toList) = [acc, ['*', '*'], ['*']] := by
      simp [splitSegments]
    rw [this, compile, if_neg (plain_not_stars _ ha), segment_plain _ ha]
    rfl
  | cons c folder ih =>
    have hf' : Plain folder := fun x hx => hf x (List.mem_cons_of_mem _ hx)
    rw [List.cons_append, splitSegments]
    by_cases hc : c = '/'
    · subst hc
      rw [if_pos rfl]
      have := ih [] hf' (fun _ h => nomatch h) (fun h => nomatch h)
      obtain ⟨s, ss, e⟩ := split_cons [] (folder ++ "/**/*".toList)
      rw [e] at this ⊢
      rw [compile, if_neg (plain_not_stars _ ha), segment_plain _ ha, this]
      simp [toRe]
    · rw [if_neg hc, ih (acc ++ [c]) hf']
      · simp [toRe, hc]
      · intro x hx
        rcases List.mem_append.1 hx with hx | hx
        · exact ha x hx
        · rw [List.mem_singleton.1 hx]; exact hf c (List.mem_cons_self ..)
      · intro hx
        rcases List.mem_append.1 hx with hx | hx
        · exact hs hx
        · exact hc (List.mem_singleton.1 hx).symm

theorem match_plain (w : Text) (rs : List Re) (t : Text) (ht : '\\' ∉ t) :
    matchRe (w.map toRe ++ rs) t = true ↔ ∃ t', t = w ++ t' ∧ matchRe rs t' = true := by
  induction w generalizing t with
  | nil => simp
  | cons c w ih =>
    rw [List.map_cons, List.cons_append]
    cases t with
    | nil =>
      constructor
      · intro h
        unfold toRe at h
        split at h <;> simp [matchRe] at h
      · rintro ⟨_, h, _⟩; cases h
    | cons d t =>
      have ht' : '\\' ∉ t := fun h => ht (List.mem_cons_of_mem _ h)
      have hd : d ≠ '\\' := fun h => ht (h ▸ List.mem_cons_self ..)
      have step : matchRe (toRe c :: (w.map toRe ++ rs)) (d :: t) = true ↔
          c = d ∧ matchRe (w.map toRe ++ rs) t = true := by
        unfold toRe
        split
        · rename_i hc
          subst hc
          rw [matchRe]
          simp only [Bool.and_eq_true, isSep, Bool.or_eq_true, beq_iff_eq, hd, or_false]
          exact and_congr_left' ⟨Eq.symm, Eq.symm⟩
        · rw [matchRe]
          simp only [Bool.and_eq_true, beq_iff_eq]
      rw [step, ih t ht']
      constructor
      · rintro ⟨rfl, t', rfl, h⟩; exact ⟨t', rfl, h⟩
      · rintro ⟨t', h, h'⟩
        rw [List.cons_append] at h
        injection h with h1 h2
        exact ⟨h1.symm, t', h2, h'⟩

theorem last_sep (t : Text) : ∃ n, n ≤ t.length ∧ (t.take n).getLast?.all isSep = true ∧
    (t.drop n).all (fun c => !isSep c) = true := by
  induction t with
  | nil => exact ⟨0, by simp, by simp, by simp⟩
  | cons c t ih =>
    obtain ⟨n, h1, h2, h3⟩ := ih
    cases n with
    | zero =>
      by_cases hc : isSep c = true
      · exact ⟨1, by simp, by simpa using hc, by simpa using h3⟩
      · refine ⟨0, by simp, by simp, ?_⟩
        simp only [List.drop_zero, List.all_cons, Bool.and_eq_true] at h3 ⊢
        exact ⟨by simpa using hc, h3⟩
    | succ n =>
      refine ⟨n + 2, by simpa using h1, ?_, by simpa using h3⟩
      cases t with
      | nil => simp at h1
      | cons d t => simpa [List.getLast?_cons_cons] using h2

theorem match_stars_many (t : Text) : matchRe [.stars, .many] t = true := by
  obtain ⟨n, h1, h2, h3⟩ := last_sep t
  rw [matchRe, List.any_eq_true]
  refine ⟨n, List.mem_range.2 (by omega), ?_⟩
  rw [h2, Bool.true_and, matchRe, List.any_eq_true]
  refine ⟨(t.drop n).length, List.mem_range.2 (by omega), ?_⟩
  rw [List.take_length, h3, List.drop_length]
  rfl

theorem glob_plain (folder path : Text) (hf : Plain folder) (hp : '\\' ∉ path) :
    ∃ b, globMatch (folder ++ "/**/*".toList) path = some b ∧ (b = true ↔ ∃ rest, path = folder ++ '/' :: rest) := by
  unfold globMatch
  rw [compile_plain folder [] hf (fun _ h => nomatch h) (fun h => nomatch h)]
  refine ⟨_, rfl, ?_⟩
  have : folder.map toRe ++ [.slash, .stars, .many] = (folder ++ ['/']).map toRe ++ [.stars, .many] := by
    simp [toRe]
  rw [List.map_nil, List.nil_append, this, match_plain _ _ _ hp]
  constructor
  · rintro ⟨t, rfl, _⟩; exact ⟨t, by simp⟩
  · rintro ⟨t, rfl⟩; exact ⟨t, by simp, match_stars_many t⟩

/-! ### C96 -/

/-- **C96** (partial: folders with plain paths, other than the root of the file system, and documents without `\` in
their path): a document is sent to the server of a folder exactly if it is a Move file in the folder. -/
theorem selects_iff_partial (folder : Text) (d : Document) (hf : Plain folder) (hr : folder ≠ ['/'])
    (hp : '\\' ∉ d.fsPath) :
    ∃ b, (selector folder).selects d = some b ∧ (b = true ↔ IsMove d ∧ InFolder folder d.fsPath) := by
  obtain ⟨b, hb, h⟩ := glob_plain folder d.fsPath hf hp
  unfold Filter.selects selector
  rw [hb]
  refine ⟨_, rfl, ?_⟩
  simp only [Bool.and_eq_true, Bool.or_eq_true, beq_iff_eq, h, IsMove, InFolder, hr, false_and, false_or]
  constructor
  · rintro ⟨⟨h1, h2⟩, h3 | h3⟩
    · exact ⟨⟨h1.symm, h2.symm⟩, "**/*".toList, by rw [← h3]; simp⟩
    · exact ⟨⟨h1.symm, h2.symm⟩, h3⟩
  · rintro ⟨⟨h1, h2⟩, h3⟩
    exact ⟨⟨h1.symm, h2.symm⟩, .inr h3⟩

/-- The documents of the folders. -/
theorem servers_mem (folders : List Text) (d : Document) (hf : ∀ f, f ∈ folders → Plain f ∧ f ≠ ['/'])
    (hp : '\\' ∉ d.fsPath) :
    ∃ (p : Text → Bool), servers folders d = some (folders.filter p) ∧
      ∀ f, f ∈ folders → (p f = true ↔ IsMove d ∧ InFolder f d.fsPath) := by
  refine ⟨fun f => (selector f).selects d = some true, ?_, ?_⟩
  · induction folders with
    | nil => rfl
    | cons f fs ih =>
      obtain ⟨b, hb, _⟩ := selects_iff_partial f d (hf f (List.mem_cons_self ..)).1 (hf f (List.mem_cons_self ..)).2 hp
      rw [servers, hb, ih (fun g hg => hf g (List.mem_cons_of_mem _ hg)), List.filter_cons]
      cases b <;> simp [hb]
  · intro f hm
    obtain ⟨b, hb, h⟩ := selects_iff_partial f d (hf f hm).1 (hf f hm).2 hp
    simp only [hb]
    simpa using h

/-- **C96**: if no folder lies in another one, a Move file of a folder is sent to the server of this folder and to no
other one, and every other document to none. -/
theorem one_server_partial (folders : List Text) (d : Document) (hf : ∀ f, f ∈ folders → Plain f ∧ f ≠ ['/'])
    (hn : folders.Nodup) (hd : ∀ f g, f ∈ folders → g ∈ folders → ¬ InFolder f g)
    (hp : '\\' ∉ d.fsPath) :
    (∀ f, f ∈ folders → IsMove d → InFolder f d.fsPath → servers folders d = some [f]) ∧
    ((¬ IsMove d ∨ ∀ f, f ∈ folders → ¬ InFolder f d.fsPath) → servers folders d = some []) := by
  obtain ⟨p, hs, h⟩ := servers_mem folders d hf hp
  rw [hs]
  constructor
  · intro f hm hmv hin
    have huniq : ∀ g, g ∈ folders → (p g = true ↔ g = f) := by
      intro g hg
      rw [h g hg]
      constructor
      · rintro ⟨_, hing⟩
        rcases hing with ⟨e, _⟩ | ⟨r, e⟩
        · exact absurd e (hf g hg).2
        · rcases hin with ⟨e', _⟩ | ⟨r', e'⟩
          · exact absurd e' (hf f hm).2
          · rw [e] at e'
            rcases List.append_eq_append_iff.1 e' with ⟨a, h1, h2⟩ | ⟨a, h1, h2⟩
            · cases a with
              | nil => simpa using h1.symm
              | cons c a =>
                rw [List.cons_append] at h2
                injection h2 with h2 h3
                exact absurd (.inr ⟨a, by rw [h1, h2]⟩) (hd g f hg hm)
            · cases a with
              | nil => simpa using h1
              | cons c a =>
                rw [List.cons_append] at h2
                injection h2 with h2 h3
                exact absurd (.inr ⟨a, by rw [h1, h2]⟩) (hd f g hm hg)
      · rintro rfl; exact ⟨hmv, hin⟩
    clear hs h hd hf
    induction folders with
    | nil => cases hm
    | cons g gs ih =>
      rw [List.nodup_cons] at hn
      rw [List.filter_cons]
      by_cases e : g = f
      · subst e
        rw [if_pos ((huniq _ (List.mem_cons_self ..)).2 rfl)]
        have : gs.filter p = [] := by
          rw [List.filter_eq_nil_iff]
          intro x hx hpx
          exact hn.1 ((huniq x (List.mem_cons_of_mem _ hx)).1 hpx ▸ hx)
        rw [this]
      · rw [if_neg (fun hpg => e ((huniq _ (List.mem_cons_self ..)).1 hpg))]
        exact ih hn.2 ((List.mem_cons.1 hm).resolve_left (fun x => e x.symm))
          (fun x hx => huniq x (List.mem_cons_of_mem _ hx))
  · intro hno
    have : folders.filter p = [] := by
      rw [List.filter_eq_nil_iff]
      intro x hx hpx
      obtain ⟨h1, h2⟩ := (h x hx).1 hpx
      rcases hno with hno | hno
      · exact hno h1
      · exact hno x hx h2
    rw [this]

/-- The document that starts the client of a folder is sent to its server if it is a Move file. -/
theorem starter_selected_partial (folder : Text) (d : Document) (hf : Plain folder) (hr : folder ≠ ['/'])
    (hp : '\\' ∉ d.fsPath) (hin : InFolder folder d.fsPath) (hm : isMoveDocument d = true) :
    (selector folder).selects d = some true ∨ (d.languageId ≠ "move".toList ∧ ∃ w, d.fsPath = w ++ "Dove.toml".toList) := by
  obtain ⟨b, hb, h⟩ := selects_iff_partial folder d hf hr hp
  simp only [isMoveDocument, Bool.and_eq_true, beq_iff_eq, Bool.or_eq_true, List.isSuffixOf_iff_suffix] at hm
  by_cases hl : d.languageId = "move".toList
  · left
    rw [hb, h.2 ⟨⟨hm.1, hl⟩, hin⟩]
  · right
    refine ⟨hl, ?_⟩
    obtain ⟨w, hw⟩ := hm.2.resolve_left hl
    exact ⟨w, hw.symm⟩

/-! ### Where the code disagrees -/

/-- **C96 is violated**: a Move file of a folder in a folder is sent to both servers. -/
theorem nested_twice (outer inner : Text) (d : Document) (ho : Plain outer) (hi : Plain inner) (hr : outer ≠ ['/'])
    (hr' : inner ≠ ['/']) (hin : InFolder outer inner) (hd : InFolder inner d.fsPath) (hm : IsMove d)
    (hp : '\\' ∉ d.fsPath) : servers [outer, inner] d = some [outer, inner] := by
  have hd' : InFolder outer d.fsPath := by
    rcases hin with ⟨e, _⟩ | ⟨r, rfl⟩
    · exact absurd e hr
    · rcases hd with ⟨e, _⟩ | ⟨r', e⟩
      · exact absurd e hr'
      · exact .inr ⟨r ++ '/' :: r', by rw [e]; simp⟩
  obtain ⟨b, hb, h⟩ := selects_iff_partial outer d ho hr hp
  obtain ⟨b', hb', h'⟩ := selects_iff_partial inner d hi hr' hp
  rw [h.2 ⟨hm, hd'⟩] at hb
  rw [h'.2 ⟨hm, hd⟩] at hb'
  simp only [servers, hb, hb']

/-- **C96 is violated**: if the root of the file system is the folder, no document is sent to the server, apart from
paths that begin with two slashes. -/
theorem root_selects_none (d : Document) (hp : '\\' ∉ d.fsPath) (h2 : ∀ rest, d.fsPath ≠ '/' :: '/' :: rest) :
    (selector ['/']).selects d = some false := by
  obtain ⟨b, hb, h⟩ := glob_plain ['/'] d.fsPath (by decide) hp
  have : b = false := by
    cases b
    · rfl
    · obtain ⟨r, hr⟩ := h.1 rfl
      exact absurd hr (h2 r)
  subst this
  unfold Filter.selects selector
  rw [hb]
  have : (['/'] ++ "/**/*".toList == d.fsPath) = false := by
    rw [beq_eq_false_iff_ne]
    intro e
    exact h2 "**/*".toList (by rw [← e]; rfl)
  simp only [this, Option.map_some, Bool.or_false, Bool.and_false]

/-- A Move file. -/
def moveFile (path : String) : Document := ⟨"file".toList, "move".toList, path.toList⟩

/-- **C96 is violated**: the folder `/w/[x]` does not get its own files, but those of `/w/x`; the folder `/w/a*` gets
those of `/w/ab`. -/
theorem special_characters :
    InFolder "/w/[x]".toList (moveFile "/w/[x]/m.move").fsPath ∧
    (selector "/w/[x]".toList).selects (moveFile "/w/[x]/m.move") = some false ∧
    ¬ InFolder "/w/[x]".toList (moveFile "/w/x/m.move").fsPath ∧
    (selector "/w/[x]".toList).selects (moveFile "/w/x/m.move") = some true ∧
    ¬ InFolder "/w/a*".toList (moveFile "/w/ab/m.move").fsPath ∧
    (selector "/w/a*".toList).selects (moveFile "/w/ab/m.move") = some true := by
  refine ⟨.inr ⟨"m.move".toList, rfl⟩, by decide +kernel, ?_, by decide +kernel, ?_, by decide +kernel⟩
  · rintro (⟨h, _⟩ | ⟨r, h⟩)
    · cases h
    · simp [moveFile] at h
  · rintro (⟨h, _⟩ | ⟨r, h⟩)
    · cases h
    · simp [moveFile] at h

/-! ### Witnesses -/

example : Plain "/home/me/my project".toList ∧ "/home/me/my project".toList ≠ ['/'] ∧
    InFolder "/home/me/my project".toList (moveFile "/home/me/my project/modules/a.move").fsPath ∧
    IsMove (moveFile "/home/me/my project/modules/a.move") ∧
    '\\' ∉ (moveFile "/home/me/my project/modules/a.move").fsPath ∧
    isMoveDocument (moveFile "/home/me/my project/modules/a.move") = true :=
  ⟨by decide, by decide, .inr ⟨"modules/a.move".toList, rfl⟩, ⟨rfl, rfl⟩, by decide, by decide⟩

example : servers ["/w/a".toList, "/w/ab".toList] (moveFile "/w/ab/x/m.move") = some ["/w/ab".toList] ∧
    servers ["/w/a".toList, "/w/ab".toList] (moveFile "/w/m.move") = some [] ∧
    servers ["/w/a".toList] ⟨"git".toList, "move".toList, "/w/a/m.move".toList⟩ = some [] ∧
    servers ["/w/a".toList] ⟨"file".toList, "toml".toList, "/w/a/Dove.toml".toList⟩ = some [] := by
  decide +kernel

example : (∀ f, f ∈ ["/w/a".toList, "/w/ab".toList] → Plain f ∧ f ≠ ['/']) ∧
    ["/w/a".toList, "/w/ab".toList].Nodup ∧
    ∀ f g, f ∈ ["/w/a".toList, "/w/ab".toList] → g ∈ ["/w/a".toList, "/w/ab".toList] → ¬ InFolder f g := by
  refine ⟨by decide, by decide, ?_⟩
  intro f g hf hg
  simp only [List.mem_cons, List.not_mem_nil, or_false] at hf hg
  rintro (⟨h, _⟩ | ⟨r, h⟩) <;> rcases hf with rfl | rfl <;> rcases hg with rfl | rfl <;> simp at h

example : InFolder "/w".toList "/w/a".toList ∧ Plain "/w".toList ∧ Plain "/w/a".toList :=
  ⟨.inr ⟨"a".toList, rfl⟩, by decide, by decide⟩

example : ∀ rest, (moveFile "/a/m.move").fsPath ≠ '/' :: '/' :: rest := by
  intro rest h
  simp [moveFile] at h

end Verif.Editor.Selector
