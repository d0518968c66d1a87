import Verif.Editor.Selector

set_option autoImplicit false

/-!
C96: which documents the server of a folder is told of if the path of the folder has characters that are special in a
pattern.
-/

namespace Verif.Editor.Selector

/-! ### Specification: how the path of a folder is read as a pattern -/

/-- What stands between brackets. -/
inductive Item where
  /-- `c` -/
  | char (c : Char)
  /-- `a-b` -/
  | range (a b : Char)

/-- What can stand behind an opening bracket: nothing, `!` or `^`. -/
inductive Sign where
  | plain | bang | caret
  deriving DecidableEq

def Sign.text : Sign → Text
  | .plain => []
  | .bang => ['!']
  | .caret => ['^']

/-- A piece of the path of a folder. -/
inductive Piece where
  /-- a character that is not special -/
  | char (c : Char)
  /-- `?` -/
  | any
  /-- `*` -/
  | run
  /-- `[...]`, possibly with `!` or `^` behind the bracket -/
  | set (neg : Sign) (items : List Item)

/-- The text of an item. -/
def Item.text : Item → Text
  | .char c => [c]
  | .range a b => [a, '-', b]

/-- The text of a piece. -/
def Piece.text : Piece → Text
  | .char c => [c]
  | .any => ['?']
  | .run => ['*']
  | .set neg items => '[' :: (neg.text ++ items.flatMap Item.text ++ [']'])

/-- The text of a path. -/
def written (ps : List Piece) : Text := ps.flatMap Piece.text

/-- The character is one that the item stands for. -/
def Item.Has : Item → Char → Prop
  | .char a, c => c = a
  | .range a b, c => a.toNat ≤ c.toNat ∧ c.toNat ≤ b.toNat

/-- The text is one that the pieces stand for. -/
inductive Fits : List Piece → Text → Prop
  | nil : Fits [] []
  | char (c : Char) {ps : List Piece} {t : Text} : Fits ps t → Fits (.char c :: ps) (c :: t)
  | any (c : Char) {ps : List Piece} {t : Text} : c ≠ '/' → Fits ps t → Fits (.any :: ps) (c :: t)
  | run (w : Text) {ps : List Piece} {t : Text} : '/' ∉ w → Fits ps t → Fits (.run :: ps) (w ++ t)
  | set (neg : Sign) (items : List Item) (c : Char) {ps : List Piece} {t : Text} :
      (neg = .plain ↔ ∃ i, i ∈ items ∧ i.Has c) → Fits ps t → Fits (.set neg items :: ps) (c :: t)

/-- The character can stand between brackets by itself. -/
def Tame (c : Char) : Prop := c ∉ "]/-^!".toList

/-- The item is made of such characters. -/
def Item.Tame : Item → Prop
  | .char c => Selector.Tame c
  | .range a b => Selector.Tame a ∧ Selector.Tame b

/-- The piece reads as it is written: the other characters are not special, brackets are not empty. -/
def Piece.Tame : Piece → Prop
  | .char c => c ∉ "*?[]{}".toList
  | .any => True
  | .run => True
  | .set _ items => items ≠ [] ∧ ∀ i, i ∈ items → i.Tame

/-- No `**`. -/
def NoStars : List Piece → Prop
  | .run :: .run :: _ => False
  | _ :: ps => NoStars ps
  | [] => True

/-! ### The regular expression -/

/-- The ranges of an item. -/
def Item.pair : Item → Char × Char
  | .char c => (c, c)
  | .range a b => (a, b)

def Sign.negates : Sign → Bool
  | .plain => false
  | _ => true

/-- The regular expression of a piece. -/
def Piece.re : Piece → Re
  | .char c => toRe c
  | .any => .one
  | .run => .many
  | .set neg items => .cls neg.negates (items.map Item.pair)

theorem tame_iff (c : Char) : Tame c ↔ c ≠ ']' ∧ c ≠ '/' ∧ c ≠ '-' ∧ c ≠ '^' ∧ c ≠ '!' := by
  simp [Tame]

theorem item_tame_mem (i : Item) (h : i.Tame) (c : Char) (hc : c ∈ i.text) : c ≠ ']' ∧ c ≠ '/' := by
  cases i with
  | char a =>
    have ha := (tame_iff a).1 h
    simp only [Item.text, List.mem_singleton] at hc
    subst hc
    exact ⟨ha.1, ha.2.1⟩
  | range a b =>
    have ha := (tame_iff a).1 h.1
    have hb := (tame_iff b).1 h.2
    simp only [Item.text, List.mem_cons, List.not_mem_nil, or_false] at hc
    rcases hc with rfl | rfl | rfl
    · exact ⟨ha.1, ha.2.1⟩
    · exact ⟨by decide, by decide⟩
    · exact ⟨hb.1, hb.2.1⟩

theorem ranges_char (a : Char) (t : Text) (h : ∀ b r, t ≠ '-' :: b :: r) : ranges (a :: t) = (a, a) :: ranges t := by
  cases t with
  | nil => simp [ranges]
  | cons d t =>
    cases t with
    | nil => simp [ranges]
    | cons e t =>
      have hd : d ≠ '-' := fun e' => h e t (e' ▸ rfl)
      rw [ranges]
      intro b rest e'
      injection e' with e1 _
      exact hd e1

theorem ranges_items (items : List Item) (h : ∀ i, i ∈ items → i.Tame) :
    ranges (items.flatMap Item.text) = items.map Item.pair := by
  induction items with
  | nil => simp [ranges]
  | cons i items ih =>
    have ih := ih fun j hj => h j (List.mem_cons_of_mem _ hj)
    have hnext : ∀ b r, items.flatMap Item.text ≠ '-' :: b :: r := by
      intro b r e
      cases items with
      | nil => simp at e
      | cons j items =>
        have hj := h j (by simp)
        cases j with
        | char c =>
          simp only [List.flatMap_cons, Item.text, List.cons_append, List.nil_append, List.cons.injEq] at e
          exact ((tame_iff c).1 hj).2.2.1 e.1
        | range c d =>
          simp only [List.flatMap_cons, Item.text, List.cons_append, List.nil_append, List.cons.injEq] at e
          exact ((tame_iff c).1 hj.1).2.2.1 e.1
    cases i with
    | char c =>
      simp only [List.flatMap_cons, Item.text, List.cons_append, List.nil_append, List.map_cons, Item.pair]
      rw [ranges_char _ _ hnext, ih]
    | range a b =>
      simp only [List.flatMap_cons, Item.text, List.cons_append, List.nil_append, List.map_cons, Item.pair]
      rw [ranges, ih]

theorem mkClass_items (neg : Sign) (items : List Item) (h : ∀ i, i ∈ items → i.Tame) :
    mkClass (neg.text ++ items.flatMap Item.text) = .cls neg.negates (items.map Item.pair) := by
  cases neg with
  | bang => simp [mkClass, Sign.text, Sign.negates, ranges_items items h]
  | caret => simp [mkClass, Sign.text, Sign.negates, ranges_items items h]
  | plain =>
    rw [Sign.text, List.nil_append]
    rw [mkClass, ranges_items items h]
    · rfl
    · intro rest e
      cases items with
      | nil => simp at e
      | cons j items =>
        have hj := h j (by simp)
        cases j with
        | char c =>
          simp only [List.flatMap_cons, Item.text, List.cons_append, List.nil_append, List.cons.injEq] at e
          exact ((tame_iff c).1 hj).2.2.2.1 e.1
        | range c d =>
          simp only [List.flatMap_cons, Item.text, List.cons_append, List.nil_append, List.cons.injEq] at e
          exact ((tame_iff c).1 hj.1).2.2.2.1 e.1
    · intro rest e
      cases items with
      | nil => simp at e
      | cons j items =>
        have hj := h j (by simp)
        cases j with
        | char c =>
          simp only [List.flatMap_cons, Item.text, List.cons_append, List.nil_append, List.cons.injEq] at e
          exact ((tame_iff c).1 hj).2.2.2.2 e.1
        | range c d =>
          simp only [List.flatMap_cons, Item.text, List.cons_append, List.nil_append, List.cons.injEq] at e
          exact ((tame_iff c).1 hj.1).2.2.2.2 e.1

theorem segment_brackets (w b t : Text) (hw : ∀ c, c ∈ w → c ≠ ']' ∧ c ≠ '/') (hb : b ++ w ≠ []) :
    segment (some b) (w ++ ']' :: t) = (segment none t).map (mkClass (b ++ w) :: ·) := by
  induction w generalizing b with
  | nil =>
    rw [List.append_nil] at hb
    rw [List.nil_append, segment, if_pos ⟨rfl, hb⟩, List.append_nil]
  | cons c w ih =>
    obtain ⟨h1, h2⟩ := hw c (List.mem_cons_self ..)
    rw [List.cons_append, segment, if_neg (fun h => h1 h.1), if_neg h2,
      ih _ (fun x hx => hw x (List.mem_cons_of_mem _ hx)) (by simp)]
    simp

theorem segment_piece (p : Piece) (t : Text) (h : p.Tame) (hs : '/' ∉ p.text) :
    segment none (p.text ++ t) = (segment none t).map (p.re :: ·) := by
  cases p with
  | char c =>
    have hc : c ≠ '*' ∧ c ≠ '?' ∧ c ≠ '[' ∧ c ≠ ']' ∧ c ≠ '{' ∧ c ≠ '}' := by simpa [Piece.Tame] using h
    have hc' : c ≠ '/' := fun e => hs (by simp [Piece.text, e])
    simp [Piece.text, segment, Piece.re, toRe, hc, hc']
  | any => simp [Piece.text, segment, Piece.re]
  | run => simp [Piece.text, segment, Piece.re]
  | set neg items =>
    obtain ⟨h0, h⟩ := h
    have hmem : ∀ c, c ∈ neg.text ++ items.flatMap Item.text → c ≠ ']' ∧ c ≠ '/' := by
      intro c hc
      rcases List.mem_append.1 hc with hc | hc
      · cases neg
        · simp [Sign.text] at hc
        · simp only [Sign.text, List.mem_singleton] at hc
          subst hc
          exact ⟨by decide, by decide⟩
        · simp only [Sign.text, List.mem_singleton] at hc
          subst hc
          exact ⟨by decide, by decide⟩
      · obtain ⟨i, hi, hc⟩ := List.mem_flatMap.1 hc
        exact item_tame_mem i (h i hi) c hc
    have hne : [] ++ (neg.text ++ items.flatMap Item.text) ≠ [] := by
      cases items with
      | nil => exact absurd rfl h0
      | cons i items => cases i <;> simp [Item.text]
    have e : (Piece.set neg items).text ++ t =
        '[' :: ((neg.text ++ items.flatMap Item.text) ++ ']' :: t) := by
      simp [Piece.text]
    have := segment_brackets _ [] t hmem hne
    rw [e, segment, if_neg (by decide), if_pos rfl, this, List.nil_append, mkClass_items neg items h]
    rfl

theorem segment_written (ps : List Piece) (h : ∀ p, p ∈ ps → p.Tame) (hs : '/' ∉ written ps) :
    segment none (written ps) = some (ps.map Piece.re) := by
  induction ps with
  | nil => rfl
  | cons p ps ih =>
    have e : written (p :: ps) = p.text ++ written ps := by simp [written]
    rw [e] at hs ⊢
    rw [segment_piece p _ (h p (List.mem_cons_self ..)) (fun h => hs (List.mem_append_left _ h)),
      ih (fun q hq => h q (List.mem_cons_of_mem _ hq)) (fun h => hs (List.mem_append_right _ h))]
    rfl

theorem noStars_tail (p : Piece) (ps : List Piece) (h : NoStars (p :: ps)) : NoStars ps := by
  cases p <;> first
    | exact h
    | (cases ps with
        | nil => trivial
        | cons q ps => cases q <;> first | exact h | exact absurd h id)

theorem noStars_append (ps qs : List Piece) (h : NoStars (ps ++ qs)) : NoStars ps ∧ NoStars qs := by
  induction ps with
  | nil => exact ⟨trivial, h⟩
  | cons p ps ih =>
    obtain ⟨h1, h2⟩ := ih (noStars_tail _ _ h)
    refine ⟨?_, h2⟩
    cases p <;> first
      | exact h1
      | (cases ps with
          | nil => trivial
          | cons q ps => cases q <;> first | exact h1 | exact absurd h id)

theorem written_not_stars (ps : List Piece) (h : ∀ p, p ∈ ps → p.Tame) (hn : NoStars ps) :
    written ps ≠ ['*', '*'] := by
  have first : ∀ (p : Piece) (qs : List Piece) (t : Text), p.Tame → written (p :: qs) = '*' :: t →
      p = .run ∧ written qs = t := by
    intro p qs t hp e
    cases p with
    | char c =>
      simp only [written, List.flatMap_cons, Piece.text, List.cons_append, List.cons.injEq] at e
      exact absurd (e.1 ▸ hp : Piece.Tame (.char '*')) (by simp [Piece.Tame])
    | any => simp [written, Piece.text] at e
    | run => simpa [written, Piece.text] using e
    | set neg items => simp [written, Piece.text] at e
  intro e
  cases ps with
  | nil => simp [written] at e
  | cons p ps =>
    obtain ⟨rfl, e'⟩ := first p ps _ (h p (List.mem_cons_self ..)) e
    cases ps with
    | nil => simp [written] at e'
    | cons q ps =>
      obtain ⟨rfl, _⟩ := first q ps _ (h q (by simp)) e'
      exact hn

theorem split_skip (w acc t : Text) (h : '/' ∉ w) : splitSegments acc (w ++ t) = splitSegments (acc ++ w) t := by
  induction w generalizing acc with
  | nil => simp
  | cons c w ih =>
    have hc : c ≠ '/' := fun e => h (e ▸ List.mem_cons_self ..)
    rw [List.cons_append, splitSegments, if_neg hc, ih _ fun h' => h (List.mem_cons_of_mem _ h')]
    simp

theorem piece_slash (p : Piece) (h : p.Tame) : p = .char '/' ∨ '/' ∉ p.text := by
  cases p with
  | char c =>
    by_cases hc : c = '/'
    · exact .inl (by rw [hc])
    · exact .inr (by simpa [Piece.text] using Ne.symm hc)
  | any => exact .inr (by simp [Piece.text])
  | run => exact .inr (by simp [Piece.text])
  | set neg items =>
    right
    simp only [Piece.text, List.mem_cons, List.mem_append, List.mem_flatMap, List.not_mem_nil, or_false]
    rintro (h' | (h' | ⟨i, hi, h'⟩) | h')
    · exact absurd h' (by decide)
    · cases neg <;> simp [Sign.text] at h'
    · exact (item_tame_mem i (h.2 i hi) _ h').2 rfl
    · exact absurd h' (by decide)

theorem compile_written (ps qs : List Piece) (hp : ∀ p, p ∈ qs ++ ps → p.Tame) (hn : NoStars (qs ++ ps))
    (hs : '/' ∉ written qs) :
    compile (splitSegments (written qs) (written ps ++ "/**/*".toList)) =
      some ((qs ++ ps).map Piece.re ++ [.slash, .stars, .many]) := by
  induction ps generalizing qs with
  | nil =>
    have hq : ∀ p, p ∈ qs → p.Tame := fun p h => hp p (by simpa using h)
    have : splitSegments (written qs) (written [] ++ "/**/*".toList) = [written qs, ['*', '*'], ['*']] := by
      simp [splitSegments, written]
    rw [this, compile, if_neg (written_not_stars _ hq (by simpa using hn)), segment_written _ hq hs, List.append_nil]
    rfl
  | cons p ps ih =>
    have hq : ∀ p, p ∈ qs → p.Tame := fun p h => hp p (List.mem_append_left _ h)
    have e : written (p :: ps) ++ "/**/*".toList = p.text ++ (written ps ++ "/**/*".toList) := by simp [written]
    rw [e]
    rcases piece_slash p (hp p (by simp)) with rfl | hsl
    · have := ih [] (fun q hq => hp q (by simp at hq ⊢; exact .inr (.inr hq)))
        (noStars_tail _ _ (noStars_append _ _ hn).2) (by simp [written])
      rw [show written [] = [] from rfl] at this
      obtain ⟨s, ss, e⟩ := split_cons [] (written ps ++ "/**/*".toList)
      rw [Piece.text, List.singleton_append, splitSegments, if_pos rfl]
      rw [e] at this ⊢
      rw [compile, if_neg (written_not_stars _ hq (noStars_append _ _ hn).1), segment_written _ hq hs, this]
      simp [Piece.re, toRe]
    · have e' : written qs ++ p.text = written (qs ++ [p]) := by simp [written]
      rw [split_skip _ _ _ hsl, e', ih (qs ++ [p]) (by simpa using hp) (by simpa using hn)
        (by rw [← e']; exact fun h => (List.mem_append.1 h).elim hs hsl)]
      simp

/-! ### What the expression matches -/

theorem inClass_iff (neg : Sign) (items : List Item) (c : Char) :
    inClass neg.negates (items.map Item.pair) c = true ↔ (neg = .plain ↔ ∃ i, i ∈ items ∧ i.Has c) := by
  have key : ((items.map Item.pair).any fun r => decide (r.1 ≤ c) && decide (c ≤ r.2)) = true ↔
      ∃ i, i ∈ items ∧ i.Has c := by
    rw [List.any_eq_true]
    constructor
    · rintro ⟨r, hr, h⟩
      obtain ⟨i, hi, rfl⟩ := List.mem_map.1 hr
      refine ⟨i, hi, ?_⟩
      simp only [Bool.and_eq_true, decide_eq_true_eq] at h
      cases i with
      | char a =>
        exact Char.le_antisymm h.2 h.1
      | range a b => exact h
    · rintro ⟨i, hi, h⟩
      refine ⟨_, List.mem_map_of_mem hi, ?_⟩
      simp only [Bool.and_eq_true, decide_eq_true_eq]
      cases i with
      | char a =>
        cases (show c = a from h)
        exact ⟨Char.le_refl _, Char.le_refl _⟩
      | range a b => exact h
  unfold inClass
  generalize ((items.map Item.pair).any fun r => decide (r.1 ≤ c) && decide (c ≤ r.2)) = b at key
  rw [← key]
  cases neg <;> cases b <;> simp [Sign.negates]

theorem match_pieces (ps : List Piece) (rs : List Re) (t : Text) (ht : '\\' ∉ t) :
    matchRe (ps.map Piece.re ++ rs) t = true ↔ ∃ f t', t = f ++ t' ∧ Fits ps f ∧ matchRe rs t' = true := by
  have sep : ∀ c, c ≠ '\\' → (isSep c = true ↔ c = '/') := by
    intro c hc
    simp [isSep, hc]
  induction ps generalizing t with
  | nil =>
    constructor
    · intro h; exact ⟨[], t, rfl, .nil, h⟩
    · rintro ⟨f, t', rfl, hf, h⟩; cases hf; exact h
  | cons p ps ih =>
    rw [List.map_cons, List.cons_append]
    cases p with
    | char c =>
      have := match_plain [c] (ps.map Piece.re ++ rs) t ht
      rw [List.map_cons, List.map_nil, List.singleton_append] at this
      rw [Piece.re, this]
      constructor
      · rintro ⟨t', rfl, h⟩
        obtain ⟨f, t'', rfl, hf, h⟩ := (ih t' (fun h' => ht (List.mem_append_right _ h'))).1 h
        exact ⟨c :: f, t'', by simp, .char c hf, h⟩
      · rintro ⟨f, t', rfl, hf, h⟩
        cases hf with
        | char _ hf =>
          rename_i f
          refine ⟨f ++ t', by simp, (ih _ ?_).2 ⟨f, t', rfl, hf, h⟩⟩
          exact fun h' => ht (List.mem_cons_of_mem _ h')
    | any =>
      rw [Piece.re]
      cases t with
      | nil =>
        constructor
        · intro h; simp [matchRe] at h
        · rintro ⟨f, t', e, hf, _⟩
          cases hf; cases e
      | cons d t =>
        have ht' : '\\' ∉ t := fun h => ht (List.mem_cons_of_mem _ h)
        have hd : d ≠ '\\' := fun h => ht (h ▸ List.mem_cons_self ..)
        have ih := ih t ht'
        rw [matchRe, Bool.and_eq_true, Bool.not_eq_true', Bool.eq_false_iff, Ne, sep d hd]
        refine (and_congr Iff.rfl ih).trans ?_
        constructor
        · rintro ⟨h1, f, t', rfl, hf, h⟩; exact ⟨d :: f, t', rfl, .any d h1 hf, h⟩
        · rintro ⟨f, t', e, hf, h⟩
          cases hf with
          | any c hc hf =>
            rw [List.cons_append] at e
            injection e with e1 e2
            subst e1
            exact ⟨hc, _, t', e2, hf, h⟩
    | set neg items =>
      rw [Piece.re]
      cases t with
      | nil =>
        constructor
        · intro h; simp [matchRe] at h
        · rintro ⟨f, t', e, hf, _⟩
          cases hf; cases e
      | cons d t =>
        have ht' : '\\' ∉ t := fun h => ht (List.mem_cons_of_mem _ h)
        have ih := ih t ht'
        rw [matchRe, Bool.and_eq_true, inClass_iff]
        refine (and_congr Iff.rfl ih).trans ?_
        constructor
        · rintro ⟨h1, f, t', rfl, hf, h⟩; exact ⟨d :: f, t', rfl, .set neg items d h1 hf, h⟩
        · rintro ⟨f, t', e, hf, h⟩
          cases hf with
          | set _ _ c hc hf =>
            rw [List.cons_append] at e
            injection e with e1 e2
            subst e1
            exact ⟨hc, _, t', e2, hf, h⟩
    | run =>
      rw [Piece.re, matchRe, List.any_eq_true]
      constructor
      · rintro ⟨n, _, h⟩
        rw [Bool.and_eq_true, List.all_eq_true] at h
        obtain ⟨h1, h2⟩ := h
        obtain ⟨f, t', e, hf, h⟩ := (ih _ (fun h' => ht (List.mem_of_mem_drop h'))).1 h2
        refine ⟨t.take n ++ f, t', ?_, .run _ ?_ hf, h⟩
        · rw [List.append_assoc, ← e, List.take_append_drop]
        · intro h'
          have := h1 _ h'
          simp [isSep] at this
      · rintro ⟨f, t', rfl, hf, h⟩
        cases hf with
        | run w hw hf =>
          rename_i f
          refine ⟨w.length, List.mem_range.2 (by simp only [List.length_append]; omega), ?_⟩
          rw [Bool.and_eq_true, List.all_eq_true]
          have e1 : (w ++ f ++ t').take w.length = w := by rw [List.append_assoc, List.take_left']; rfl
          have e2 : (w ++ f ++ t').drop w.length = f ++ t' := by rw [List.append_assoc, List.drop_left']; rfl
          rw [e1, e2]
          constructor
          · intro c hc
            have hc1 : c ≠ '/' := fun e => hw (e ▸ hc)
            have hc2 : c ≠ '\\' := fun e => ht (e ▸ by simp [hc])
            simp [isSep, hc1, hc2]
          · refine (ih _ ?_).2 ⟨f, t', rfl, hf, h⟩
            intro h'
            exact ht (by rw [List.append_assoc]; exact List.mem_append_right _ h')

/-! ### C96 -/

/-- **C96** (partial: without `**`, braces and unpaired brackets): the path of a folder is read as a pattern.  A document
is sent to the server of the folder exactly if it is a Move file and lies in one of the folders that the pattern stands
for; or if its path is the pattern itself. -/
theorem selects_pattern_partial (ps : List Piece) (d : Document) (ht : ∀ p, p ∈ ps → p.Tame) (hn : NoStars ps)
    (hp : '\\' ∉ d.fsPath) :
    ∃ b, (selector (written ps)).selects d = some b ∧
      (b = true ↔ IsMove d ∧
        ((∃ f rest, Fits ps f ∧ d.fsPath = f ++ '/' :: rest) ∨ d.fsPath = written ps ++ "/**/*".toList)) := by
  have hc := compile_written ps [] (by simpa using ht) (by simpa using hn) (by simp [written])
  rw [show written [] = [] from rfl, List.nil_append] at hc
  unfold Filter.selects selector globMatch
  rw [hc]
  refine ⟨_, rfl, ?_⟩
  have e : (ps.map Piece.re ++ [.slash, .stars, .many]) = (ps.map Piece.re ++ ([Re.slash] ++ [.stars, .many])) := rfl
  have hm : matchRe (ps.map Piece.re ++ [.slash, .stars, .many]) d.fsPath = true ↔
      ∃ f rest, Fits ps f ∧ d.fsPath = f ++ '/' :: rest := by
    rw [match_pieces ps _ _ hp]
    constructor
    · rintro ⟨f, t', e, hf, h⟩
      have ht' : '\\' ∉ t' := fun h' => hp (e ▸ List.mem_append_right _ h')
      obtain ⟨t'', rfl, _⟩ := (match_plain ['/'] [.stars, .many] t' ht').1 h
      exact ⟨f, t'', hf, e⟩
    · rintro ⟨f, rest, hf, e⟩
      refine ⟨f, _, e, hf, (match_plain ['/'] [.stars, .many] _ ?_).2 ⟨rest, rfl, match_stars_many rest⟩⟩
      exact fun h' => hp (e ▸ List.mem_append_right _ h')
  simp only [Bool.and_eq_true, Bool.or_eq_true, beq_iff_eq, hm, IsMove]
  constructor
  · rintro ⟨⟨h1, h2⟩, h3 | h3⟩
    · exact ⟨⟨h1.symm, h2.symm⟩, .inr h3.symm⟩
    · exact ⟨⟨h1.symm, h2.symm⟩, .inl h3⟩
  · rintro ⟨⟨h1, h2⟩, h3 | h3⟩
    · exact ⟨⟨h1.symm, h2.symm⟩, .inr h3⟩
    · exact ⟨⟨h1.symm, h2.symm⟩, .inl h3.symm⟩

/-- Without brackets a pattern stands for its own text. -/
theorem fits_itself (ps : List Piece) (h : ∀ neg items, Piece.set neg items ∉ ps) : Fits ps (written ps) := by
  induction ps with
  | nil => exact .nil
  | cons p ps ih =>
    have ih := ih fun neg items h' => h neg items (List.mem_cons_of_mem _ h')
    cases p with
    | char c => exact .char c ih
    | any => exact .any '?' (by decide) ih
    | run => exact .run ['*'] (by decide) ih
    | set neg items => exact absurd (List.mem_cons_self ..) (h neg items)

/-- A folder with `?` or `*` in its path still gets its own Move files. -/
theorem own_files_without_brackets (ps : List Piece) (d : Document) (ht : ∀ p, p ∈ ps → p.Tame) (hn : NoStars ps)
    (hb : ∀ neg items, Piece.set neg items ∉ ps) (hp : '\\' ∉ d.fsPath) (hm : IsMove d) (rest : Text)
    (hd : d.fsPath = written ps ++ '/' :: rest) : (selector (written ps)).selects d = some true := by
  obtain ⟨b, hs, h⟩ := selects_pattern_partial ps d ht hn hp
  rw [hs, h.2 ⟨hm, .inl ⟨_, rest, fits_itself ps hb, hd⟩⟩]

theorem fits_front (qs rs : List Piece) (w t : Text) (neg : Sign) (items : List Item)
    (hq : ∀ p, p ∈ qs → (∃ c, p = .char c) ∨ p = .any) (hf : Fits (qs ++ .set neg items :: rs) w)
    (hw : ∃ u, w ++ u = written qs ++ '[' :: t) : neg = .plain ↔ ∃ i, i ∈ items ∧ i.Has '[' := by
  induction qs generalizing w with
  | nil =>
    cases hf with
    | set _ _ c hc _ =>
      obtain ⟨u, e⟩ := hw
      simp only [written, List.flatMap_nil, List.nil_append, List.cons_append, List.cons.injEq] at e
      rw [← e.1]
      exact hc
  | cons p qs ih =>
    have hq' : ∀ p, p ∈ qs → (∃ c, p = .char c) ∨ p = .any := fun p h => hq p (List.mem_cons_of_mem _ h)
    obtain ⟨u, e⟩ := hw
    rcases hq p (List.mem_cons_self ..) with ⟨c, rfl⟩ | rfl
    · cases hf with
      | char _ hf =>
        rw [written, List.flatMap_cons, Piece.text, List.singleton_append, List.cons_append, List.cons_append] at e
        injection e with _ e
        exact ih _ hq' hf ⟨u, e⟩
    · cases hf with
      | any _ _ hf =>
        rw [written, List.flatMap_cons, Piece.text, List.singleton_append, List.cons_append, List.cons_append] at e
        injection e with _ e
        exact ih _ hq' hf ⟨u, e⟩

/-- **C96 is violated** by every folder with brackets in its path that do not stand for `[` itself, and no `*` in front of
them: none of its own Move files is sent to its server, but for a file at the path of the pattern. -/
theorem brackets_miss_their_files (qs rs : List Piece) (neg : Sign) (items : List Item) (d : Document)
    (ht : ∀ p, p ∈ qs ++ .set neg items :: rs → p.Tame) (hn : NoStars (qs ++ .set neg items :: rs))
    (hq : ∀ p, p ∈ qs → (∃ c, p = .char c) ∨ p = .any)
    (hi : ¬ (neg = .plain ↔ ∃ i, i ∈ items ∧ i.Has '['))
    (hp : '\\' ∉ d.fsPath) (rest : Text) (hr : rest ≠ "**/*".toList)
    (hd : d.fsPath = written (qs ++ .set neg items :: rs) ++ '/' :: rest) :
    InFolder (written (qs ++ .set neg items :: rs)) d.fsPath ∧
    (selector (written (qs ++ .set neg items :: rs))).selects d = some false := by
  refine ⟨.inr ⟨rest, hd⟩, ?_⟩
  obtain ⟨b, hs, h⟩ := selects_pattern_partial _ d ht hn hp
  rw [hs]
  cases b with
  | false => rfl
  | true =>
    obtain ⟨_, ⟨f, rest', hf, e⟩ | e⟩ := h.1 rfl
    · refine absurd (fits_front qs rs f
        (neg.text ++ items.flatMap Item.text ++ [']'] ++ written rs ++ '/' :: rest) neg items hq hf
        ⟨'/' :: rest', ?_⟩) hi
      rw [← e, hd]
      simp [written, Piece.text]
    · rw [hd] at e
      have := List.append_cancel_left e
      exact absurd (List.cons.inj (this : '/' :: rest = '/' :: "**/*".toList)).2 hr

/-- **C96 is violated** by every folder with `?` in the last name of a path that is plain otherwise: it also gets the
Move files of the siblings with any character in that place. -/
theorem question_mark_gets_siblings (pre post : Text) (c : Char) (d : Document) (h1 : Plain pre) (h2 : Plain post)
    (hc : c ≠ '/') (hq : c ≠ '?') (hm : IsMove d) (hp : '\\' ∉ d.fsPath) (rest : Text)
    (hd : d.fsPath = pre ++ c :: (post ++ '/' :: rest)) :
    ¬ InFolder (pre ++ '?' :: post) d.fsPath ∧ (selector (pre ++ '?' :: post)).selects d = some true := by
  constructor
  · rintro (⟨e, _⟩ | ⟨r, e⟩)
    · cases pre with
      | nil => simp at e
      | cons x pre =>
        have := (List.cons.inj e).2
        simp at this
    · rw [hd, List.append_assoc] at e
      exact hq (List.cons.inj (List.append_cancel_left e)).1
  · have hw : ∀ w : Text, written (w.map .char) = w := by
      intro w
      induction w with
      | nil => rfl
      | cons a w ih =>
        rw [List.map_cons, written, List.flatMap_cons, Piece.text, List.singleton_append]
        exact congrArg _ ih
    have e : pre ++ '?' :: post = written (pre.map .char ++ .any :: post.map .char) := by
      have : written (pre.map .char ++ .any :: post.map .char) =
          written (pre.map .char) ++ '?' :: written (post.map .char) := by simp [written, Piece.text]
      rw [this, hw, hw]
    have hfit : ∀ w : Text, ∀ (ps : List Piece) (t : Text), Fits ps t → Fits (w.map .char ++ ps) (w ++ t) := by
      intro w ps t h
      induction w with
      | nil => exact h
      | cons a w ih => exact .char a ih
    have hns : ∀ w : Text, ∀ ps : List Piece, NoStars ps → NoStars (w.map .char ++ ps) := by
      intro w ps h
      induction w with
      | nil => exact h
      | cons a w ih => exact ih
    obtain ⟨b, hs, h⟩ := selects_pattern_partial (pre.map .char ++ .any :: post.map .char) d
      (by
        intro p hp
        rcases List.mem_append.1 hp with hp | hp
        · obtain ⟨a, ha, rfl⟩ := List.mem_map.1 hp; exact h1 a ha
        · rcases List.mem_cons.1 hp with rfl | hp
          · trivial
          · obtain ⟨a, ha, rfl⟩ := List.mem_map.1 hp; exact h2 a ha)
      (hns pre _ (by
        have := hns post [] trivial
        rw [List.append_nil] at this
        exact this))
      hp
    rw [e, hs, h.2 ⟨hm, .inl ⟨pre ++ c :: post, rest, hfit pre _ _ (.any c hc ?_), by rw [hd]; simp⟩⟩]
    have := hfit post [] [] .nil
    rw [List.append_nil, List.append_nil] at this
    exact this

/-! ### Witnesses -/

example : written [.char '/', .char 'a', .set .bang [.range '0' '9', .char '_'], .run, .any] = "/a[!0-9_]*?".toList ∧
    Fits [.char '/', .char 'a', .set .bang [.range '0' '9', .char '_'], .run, .any] "/axyz".toList ∧
    ¬ Fits [.char '/', .char 'a', .set .bang [.range '0' '9', .char '_'], .run, .any] "/a5yz".toList := by
  refine ⟨by decide, ?_, ?_⟩
  · refine .char _ (.char _ (.set _ _ 'x' ?_ (.run ['y'] (by decide) (.any 'z' (by decide) .nil))))
    simp only [reduceCtorEq, List.mem_cons, List.not_mem_nil, or_false, false_iff]
    rintro ⟨i, rfl | rfl, h⟩
    · exact absurd h.2 (by decide)
    · exact absurd (show 'x' = '_' from h) (by decide)
  · intro h
    cases h with
    | char _ h =>
      cases h with
      | char _ h =>
        cases h with
        | set _ _ _ hc _ =>
          exact absurd (hc.2 ⟨.range '0' '9', by simp, by decide, by decide⟩) (by decide)

example : written [.char '/', .set .caret [.char 'b']] = "/[^b]".toList ∧ Fits [.char '/', .set .caret [.char 'b']] "/c".toList :=
  ⟨by decide, .char _ (.set _ _ 'c' ⟨nofun, fun ⟨i, hi, h⟩ => by simp at hi; subst hi; cases h⟩ .nil)⟩

example : (∀ p, p ∈ [Piece.char '/', .set .plain [.char 'x'], .run] → p.Tame) ∧
    NoStars [Piece.char '/', .set .plain [.char 'x'], .run] ∧
    ¬ (false = false ↔ ∃ i, i ∈ [Item.char 'x'] ∧ i.Has '[') ∧
    (moveFile "/[x]*/m.move").fsPath = written [.char '/', .set .plain [.char 'x'], .run] ++ '/' :: "m.move".toList := by
  refine ⟨?_, trivial, ?_, by decide⟩
  · intro p hp
    simp only [List.mem_cons, List.not_mem_nil, or_false] at hp
    rcases hp with rfl | rfl | rfl
    · simp [Piece.Tame]
    · refine ⟨by simp, ?_⟩
      intro i hi
      rw [List.mem_singleton.1 hi]
      simp [Item.Tame, Tame]
    · trivial
  · intro h
    obtain ⟨i, hi, h⟩ := h.1 rfl
    rw [List.mem_singleton.1 hi] at h
    exact absurd (show '[' = 'x' from h) (by decide)

example : Plain "/w/a".toList ∧ Plain "b".toList ∧ IsMove (moveFile "/w/axb/m.move") ∧
    (moveFile "/w/axb/m.move").fsPath = "/w/a".toList ++ 'x' :: ("b".toList ++ '/' :: "m.move".toList) :=
  ⟨by decide, by decide, ⟨rfl, rfl⟩, by decide⟩

end Verif.Editor.Selector
