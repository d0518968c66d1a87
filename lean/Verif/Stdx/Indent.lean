import Verif.Stdx.Model
import Verif.Lexer.Lemmas

set_option autoImplicit false

/-!
C50, `trim_indent`.
-/

namespace Verif.Stdx

namespace Spec

/-- A line: leading white space and the rest, which is empty or begins with something visible. -/
structure Line where
  indent : Text
  rest : Text

def Line.text (l : Line) : Text := l.indent ++ l.rest

def Line.blank (l : Line) : Prop := l.rest = []

/-- The white space of the line is leading and within the line. -/
structure Line.Ok (l : Line) : Prop where
  indent_space : ∀ c ∈ l.indent, Lexer.isUnicodeWs c = true ∧ c ≠ '\n'
  rest_visible : ∀ c, l.rest.head? = some c → Lexer.isUnicodeWs c = false
  rest_line : '\n' ∉ l.rest

/-- Lines joined by newlines. -/
def joinLines (ls : List Text) : Text := List.intercalate ['\n'] ls

/-- `n` is the smallest indentation of a non-blank line, counted in bytes, and zero if there is none. -/
def CommonIndent (ls : List Line) (n : Nat) : Prop :=
  (∀ l ∈ ls, ¬ l.blank → n ≤ byteLen l.indent) ∧
  ((∃ l ∈ ls, ¬ l.blank ∧ byteLen l.indent = n) ∨ (n = 0 ∧ ∀ l ∈ ls, l.blank))

/-- The first `n` bytes of the line are whole characters, or the line has no more than `n` bytes. -/
def Line.Divides (l : Line) (n : Nat) : Prop :=
  byteLen l.text ≤ n ∨ ∃ removed kept, l.text = removed ++ kept ∧ byteLen removed = n

/-- A line with `n` bytes of indentation removed.  A blank line may have no more than that; then it loses
white space at its start, all of it if it consists of spaces. -/
def Unindented (n : Nat) (l : Line) (out : Text) : Prop :=
  (∃ removed kept, l.indent = removed ++ kept ∧ byteLen removed = n ∧ out = kept ++ l.rest) ∨
  (l.blank ∧ byteLen l.indent ≤ n ∧ out <:+ l.indent ∧ ((∀ c ∈ l.indent, c = ' ') → out = []))

end Spec

open Spec

/-! Lines. -/

theorem splitInclusive_line (b rest : Text) (h : '\n' ∉ b) :
    splitInclusive (b ++ '\n' :: rest) = (b ++ ['\n']) :: splitInclusive rest := by
  induction b with
  | nil => simp [splitInclusive]
  | cons c b ih =>
    have hc : c ≠ '\n' := fun e => h (by simp [e])
    have hb : '\n' ∉ b := fun e => h (by simp [e])
    simp only [List.cons_append, splitInclusive, hc, if_false, ih hb]

theorem splitInclusive_last (b : Text) (h : '\n' ∉ b) :
    splitInclusive b = if b = [] then [] else [b] := by
  induction b with
  | nil => rfl
  | cons c b ih =>
    have hc : c ≠ '\n' := fun e => h (by simp [e])
    have hb : '\n' ∉ b := fun e => h (by simp [e])
    simp only [splitInclusive, hc, if_false, ih hb]
    by_cases e : b = [] <;> simp [e]

theorem splitInclusive_flatten (t : Text) : (splitInclusive t).flatten = t := by
  induction t with
  | nil => rfl
  | cons c cs ih =>
    simp only [splitInclusive]
    split
    · simp [ih]
    · split
      · next h => rw [h] at ih; simp at ih; simp [← ih]
      · next h => rw [h] at ih; simp at ih; simp [← ih]

theorem joinLines_cons (b : Text) (c : Text) (bs : List Text) :
    joinLines (b :: c :: bs) = b ++ '\n' :: joinLines (c :: bs) := by
  simp [joinLines, List.intercalate]

theorem joinLines_single (b : Text) : joinLines [b] = b := by simp [joinLines, List.intercalate]

/-! White space. -/

theorem dropWhile_eq_nil {p : Char → Bool} (w : Text) (h : w.dropWhile p = []) : ∀ c ∈ w, p c = true := by
  induction w with
  | nil => simp
  | cons c w ih =>
    simp only [List.dropWhile_cons] at h
    split at h
    · next hp =>
      intro d hd
      rcases List.mem_cons.1 hd with rfl | hd
      · exact hp
      · exact ih h d hd
    · cases h

theorem dropWhile_all {p : Char → Bool} (w : Text) (h : ∀ c ∈ w, p c = true) : w.dropWhile p = [] := by
  induction w with
  | nil => rfl
  | cons c w ih =>
    rw [List.dropWhile_cons, if_pos (h c (by simp))]
    exact ih fun d hd => h d (by simp [hd])

/-- The characters with the Unicode property `White_Space`. -/
def whiteSpace : List Nat :=
  [0x9, 0xA, 0xB, 0xC, 0xD, 0x20, 0x85, 0xA0, 0x1680, 0x2000, 0x2001, 0x2002, 0x2003, 0x2004, 0x2005, 0x2006, 0x2007,
    0x2008, 0x2009, 0x200A, 0x2028, 0x2029, 0x202F, 0x205F, 0x3000]

/-- The whitespace of the model is the Unicode property. -/
theorem white_space (c : Char) : Lexer.isUnicodeWs c = true ↔ c.toNat ∈ whiteSpace := by
  show _ ↔ c.val.toNat ∈ whiteSpace
  unfold Lexer.isUnicodeWs whiteSpace
  generalize c.val.toNat = n
  simp only [Bool.or_eq_true, Bool.and_eq_true, decide_eq_true_eq, beq_iff_eq, List.mem_cons, List.not_mem_nil, or_false]
  omega

theorem dropWhile_indent (w r : Text) (hw : ∀ c ∈ w, Lexer.isUnicodeWs c = true)
    (hr : ∀ c, r.head? = some c → Lexer.isUnicodeWs c = false) : trimStart (w ++ r) = r := by
  induction w with
  | nil =>
    cases r with
    | nil => rfl
    | cons c r => simp [trimStart, List.dropWhile, hr c rfl]
  | cons c w ih =>
    have := hw c (by simp)
    simp only [trimStart, List.cons_append, List.dropWhile_cons, this, if_true]
    exact ih fun d hd => hw d (by simp [hd])

theorem trim_isEmpty (w r : Text) (hw : ∀ c ∈ w, Lexer.isUnicodeWs c = true)
    (hr : ∀ c, r.head? = some c → Lexer.isUnicodeWs c = false) : (trim (w ++ r)).isEmpty = r.isEmpty := by
  unfold trim
  rw [dropWhile_indent w r hw hr]
  cases r with
  | nil => rfl
  | cons c r =>
    have hc := hr c rfl
    have : ((c :: r).reverse.dropWhile Lexer.isUnicodeWs) ≠ [] := by
      intro h
      have := dropWhile_eq_nil _ h c (by simp)
      rw [hc] at this; cases this
    cases hx : ((c :: r).reverse.dropWhile Lexer.isUnicodeWs) with
    | nil => exact absurd hx this
    | cons d ds => simp

theorem byteLen_ascii (w : Text) (h : ∀ c ∈ w, c.utf8Size = 1) : byteLen w = w.length := by
  induction w with
  | nil => rfl
  | cons c w ih =>
    simp [h c (by simp), ih fun d hd => h d (by simp [hd])]; omega

theorem ws_cr : Lexer.isUnicodeWs '\r' = true := by decide

/-- A line as `str::lines` yields it: only a carriage return at its end may be gone. -/
theorem stripEnding_line (l : Line) (h : l.Ok) (e : Text) (he : e = [] ∨ e = ['\n']) :
    ∃ l' : Line, stripEnding (l.text ++ e) = l'.text ∧
      (∀ c ∈ l'.indent, Lexer.isUnicodeWs c = true) ∧
      (∀ c, l'.rest.head? = some c → Lexer.isUnicodeWs c = false) ∧
      (l'.rest.isEmpty = l.rest.isEmpty) ∧ (l.rest ≠ [] → l'.indent = l.indent) := by
  have hi : ∀ c ∈ l.indent, Lexer.isUnicodeWs c = true := fun c hc => (h.indent_space c hc).1
  have nl : '\n' ∉ l.text := by
    intro hm
    rcases List.mem_append.1 hm with hm | hm
    · exact (h.indent_space _ hm).2 rfl
    · exact h.rest_line hm
  rcases he with rfl | rfl
  · refine ⟨l, ?_, hi, h.rest_visible, rfl, fun _ => rfl⟩
    have : (l.text ++ []).getLast? ≠ some '\n' := by
      rw [List.append_nil]
      intro hh
      exact nl (List.mem_of_getLast? hh)
    simp [stripEnding, this]
    intro hh; exact absurd (List.mem_of_getLast? hh) nl
  · by_cases hr : l.text.getLast? = some '\r'
    · have e1 : stripEnding (l.text ++ ['\n']) = l.text.dropLast := by simp [stripEnding, hr]
      by_cases hb : l.rest = []
      · refine ⟨⟨l.indent.dropLast, []⟩, ?_, ?_, ?_, ?_, ?_⟩
        · rw [e1]; simp [Line.text, hb]
        · intro c hc; exact hi c (List.dropLast_subset _ hc)
        · intro c hc; cases hc
        · simp [hb]
        · intro hh; exact absurd hb hh
      · obtain ⟨d, ds, hds⟩ : ∃ d ds, l.rest = d :: ds := by
          cases hx : l.rest with
          | nil => exact absurd hx hb
          | cons d ds => exact ⟨d, ds, rfl⟩
        have hdv := h.rest_visible d (by simp [hds])
        have hne : ds ≠ [] := by
          intro hd
          simp [Line.text, hds, hd] at hr
          rw [hr, ws_cr] at hdv; cases hdv
        refine ⟨⟨l.indent, l.rest.dropLast⟩, ?_, hi, ?_, ?_, fun _ => rfl⟩
        · rw [e1]; simp [Line.text, List.dropLast_append_of_ne_nil, hb]
        · intro c hc
          rw [hds, List.dropLast_cons_of_ne_nil hne] at hc
          simp at hc; rw [← hc]; exact hdv
        · rw [hds, List.dropLast_cons_of_ne_nil hne]; rfl
    · refine ⟨l, ?_, hi, h.rest_visible, rfl, fun _ => rfl⟩
      simp [stripEnding, hr]

/-! The indentation. -/

theorem foldl_min (l : List Nat) (a : Nat) :
    l.foldl min a ≤ a ∧ (∀ x ∈ l, l.foldl min a ≤ x) ∧ (l.foldl min a = a ∨ l.foldl min a ∈ l) := by
  induction l generalizing a with
  | nil => simp
  | cons b l ih =>
    obtain ⟨h1, h2, h3⟩ := ih (min a b)
    simp only [List.foldl_cons]
    refine ⟨by omega, ?_, ?_⟩
    · intro x hx
      rcases List.mem_cons.1 hx with rfl | hx
      · omega
      · exact h2 x hx
    · rcases h3 with h3 | h3
      · by_cases hab : a ≤ b
        · left; omega
        · right; rw [h3]; simp; omega
      · right; simp [h3]

theorem minimum_spec (l : List Nat) (n : Nat) (hle : ∀ x ∈ l, n ≤ x) (hmem : n ∈ l ∨ (n = 0 ∧ l = [])) :
    (minimum l).getD 0 = n := by
  cases l with
  | nil =>
    rcases hmem with h | h
    · cases h
    · simp [minimum, h.1]
  | cons a l =>
    have hmem : n ∈ a :: l := by
      rcases hmem with h | h
      · exact h
      · cases h.2
    obtain ⟨h1, h2, h3⟩ := foldl_min l a
    simp only [minimum, Option.getD_some]
    have hge : n ≤ l.foldl min a := by
      rcases h3 with h3 | h3
      · rw [h3]; exact hle a (by simp)
      · exact hle _ (by simp [h3])
    have hle' : l.foldl min a ≤ n := by
      rcases List.mem_cons.1 hmem with rfl | hm
      · exact h1
      · exact h2 n hm
    omega

/-- The indentations `trim_indent` takes the minimum of. -/
theorem indents_mem (ls : List Line) (h : ∀ l ∈ ls, l.Ok) (n : Nat) :
    n ∈ (((lines (joinLines (ls.map Line.text))).filter fun it => !(trim it).isEmpty).map
      fun it => byteLen it - byteLen (trimStart it)) ↔ ∃ l ∈ ls, ¬ l.blank ∧ byteLen l.indent = n := by
  have one : ∀ (l : Line) (e : Text), l.Ok → (e = [] ∨ e = ['\n']) →
      (n ∈ (([stripEnding (l.text ++ e)].filter fun it => !(trim it).isEmpty).map
        fun it => byteLen it - byteLen (trimStart it)) ↔ ¬ l.blank ∧ byteLen l.indent = n) := by
    intro l e hl he
    obtain ⟨l', e1, h1, h2, h3, h4⟩ := stripEnding_line l hl e he
    have hw := h1
    have ht := trim_isEmpty l'.indent l'.rest hw h2
    have hd := dropWhile_indent l'.indent l'.rest hw h2
    rw [e1]
    by_cases hb : l.rest = []
    · have : (trim l'.text).isEmpty = true := by rw [Line.text, ht, h3, hb]; rfl
      simp [this, Line.blank, hb]
    · have hbe : l.rest.isEmpty = false := by simpa using hb
      have : (trim l'.text).isEmpty = false := by rw [Line.text, ht, h3, hbe]
      have hlen : byteLen l'.text - byteLen (trimStart l'.text) = byteLen l.indent := by
        rw [Line.text, hd, byteLen_append, h4 hb]
        omega
      simp only [List.filter_cons, this, Bool.not_false, if_true, List.filter_nil, List.map_cons,
        List.map_nil, List.mem_singleton, hlen, Line.blank, hb, not_false_eq_true, true_and]
      exact eq_comm
  have nl : ∀ l ∈ ls, '\n' ∉ l.text := by
    intro l hl hm
    rcases List.mem_append.1 hm with hm | hm
    · exact ((h l hl).indent_space _ hm).2 rfl
    · exact (h l hl).rest_line hm
  induction ls with
  | nil => simp [joinLines, List.intercalate, lines, splitInclusive]
  | cons l ls ih =>
    cases ls with
    | nil =>
      simp only [List.map_cons, List.map_nil, joinLines_single, lines]
      rw [splitInclusive_last _ (nl l (by simp))]
      have := one l [] (h l (by simp)) (.inl rfl)
      rw [List.append_nil] at this
      by_cases e : l.text = []
      · have hb : l.rest = [] := by simp [Line.text] at e; exact e.2
        simp [e, Line.blank, hb]
      · simp only [e, if_false, List.map_cons, List.map_nil]
        rw [this]; simp
    | cons m ms =>
      simp only [List.map_cons, joinLines_cons, lines]
      rw [splitInclusive_line _ _ (nl l (by simp))]
      have hi := ih (fun l hl => h l (by simp [hl])) (fun l hl => nl l (by simp [hl]))
      have ho := one l ['\n'] (h l (by simp)) (.inr rfl)
      simp only [List.map_cons, lines] at hi
      rw [List.map_cons, ← List.singleton_append, List.filter_append, List.map_append, List.mem_append, ho]
      simp only [List.mem_cons, exists_eq_or_imp] at hi ⊢
      exact or_congr Iff.rfl hi

theorem indentOf_eq (ls : List Line) (h : ∀ l ∈ ls, l.Ok) (n : Nat) (hn : CommonIndent ls n) :
    indentOf (joinLines (ls.map Line.text)) = n := by
  unfold indentOf
  apply minimum_spec
  · intro x hx
    obtain ⟨l, hl, hb, e⟩ := (indents_mem ls h x).1 hx
    rw [← e]; exact hn.1 l hl hb
  · rcases hn.2 with hx | ⟨h0, hall⟩
    · exact .inl ((indents_mem ls h n).2 hx)
    · refine .inr ⟨h0, ?_⟩
      rw [List.eq_nil_iff_forall_not_mem]
      intro x hx
      obtain ⟨l, hl, hb, _⟩ := (indents_mem ls h x).1 hx
      exact hb (hall l hl)

/-! One line. -/

theorem slice_at (a b : Text) : Lexer.sliceFrom (a ++ b) (byteLen a) = some b := by
  unfold Lexer.sliceFrom
  rw [Edits.splitAtByte_prefix]; rfl

theorem slice_none (t : Text) (n : Nat) (h : ∀ a b, t = a ++ b → byteLen a ≠ n) : Lexer.sliceFrom t n = none := by
  unfold Lexer.sliceFrom
  cases hs : Edits.splitAtByte n t with
  | none => rfl
  | some p =>
    obtain ⟨e1, e2⟩ := Edits.splitAtByte_some hs
    exact absurd e2.symm (h p.1 p.2 e1)

/-- Of two ways to divide a text the one with fewer bytes in front divides the front of the other. -/
theorem divide_front {a b c d : Text} (h : a ++ b = c ++ d) (hl : byteLen a ≤ byteLen c) :
    ∃ m, c = a ++ m ∧ b = m ++ d := by
  rcases List.append_eq_append_iff.1 h with ⟨m, h1, h2⟩ | ⟨m, h1, h2⟩
  · exact ⟨m, h1, h2⟩
  · have : byteLen a = byteLen c + byteLen m := by rw [h1, byteLen_append]
    cases m with
    | nil => exact ⟨[], by simpa using h1.symm, by simpa using h2.symm⟩
    | cons x m =>
      have hp := utf8Size_pos x
      simp only [byteLen_cons] at this
      omega

theorem dropWhile_append_stop (w e : Text) (h : ∀ c, e.head? = some c → c ≠ ' ') :
    (w ++ e).dropWhile (· == ' ') = w.dropWhile (· == ' ') ++ e := by
  induction w with
  | nil =>
    cases e with
    | nil => rfl
    | cons c e => simp [List.dropWhile_cons, h c rfl]
  | cons c w ih =>
    simp only [List.cons_append, List.dropWhile_cons]
    split
    · exact ih
    · rfl

theorem dropWhile_spaces (w : Text) (h : ∀ c ∈ w, c = ' ') : w.dropWhile (· == ' ') = [] := by
  apply dropWhile_all
  intro c hc; simp [h c hc]

theorem rest_bytes (l : Line) (h : ¬ l.blank) : 0 < byteLen l.rest := by
  cases hx : l.rest with
  | nil => exact absurd hx h
  | cons c r => simp; have := utf8Size_pos c; omega

theorem trimLine_eq (n : Nat) (l : Line) (hn : ¬ l.blank → n ≤ byteLen l.indent) (hd : l.Divides n) (e : Text)
    (he : e = [] ∨ e = ['\n']) : ∃ out, trimLine n (l.text ++ e) = some (out ++ e) ∧ Unindented n l out := by
  have hlen : byteLen (l.text ++ e) = byteLen l.indent + byteLen l.rest + byteLen e := by
    simp only [Line.text, byteLen_append]
  have hel : byteLen e = e.length := by rcases he with rfl | rfl <;> rfl
  by_cases hc : byteLen (l.text ++ e) ≤ n
  · have hb : l.rest = [] := by
      apply Classical.byContradiction
      intro hb
      have := hn hb
      have := rest_bytes l hb
      omega
    refine ⟨l.indent.dropWhile (· == ' '), ?_, .inr ⟨hb, by omega, List.dropWhile_suffix _, dropWhile_spaces _⟩⟩
    simp only [trimLine]
    rw [if_pos hc, Line.text, hb, List.append_nil, dropWhile_append_stop]
    intro c hc'
    rcases he with rfl | rfl
    · cases hc'
    · simp at hc'; rw [← hc']; decide
  · obtain ⟨a, b, e1, e2⟩ : ∃ a b, l.text = a ++ b ∧ byteLen a = n := by
      rcases hd with hd | hd
      · refine ⟨l.text, [], by simp, ?_⟩
        have : byteLen (l.text ++ e) = byteLen l.text + byteLen e := byteLen_append _ _
        rcases he with rfl | rfl
        · rw [hel] at this; simp only [List.length_nil] at this; omega
        · rw [hel] at this; simp only [List.length_singleton] at this; omega
      · exact hd
    have hle : byteLen a ≤ byteLen l.indent := by
      by_cases hb : l.rest = []
      · have : byteLen l.text = byteLen a + byteLen b := by rw [e1, byteLen_append]
        simp only [Line.text, hb, List.append_nil] at this
        omega
      · rw [e2]; exact hn hb
    obtain ⟨m, h1, h2⟩ := divide_front (a := a) (b := b) (c := l.indent) (d := l.rest) e1.symm hle
    refine ⟨b, ?_, .inl ⟨a, m, h1, e2, h2⟩⟩
    simp only [trimLine]
    rw [if_neg hc, e1, List.append_assoc, ← e2, slice_at]

theorem trimLine_none (n : Nat) (l : Line) (hd : ¬ l.Divides n) (e : Text) : trimLine n (l.text ++ e) = none := by
  have hlt : n < byteLen l.text := Nat.lt_of_not_le fun h => hd (.inl h)
  have hlen : byteLen (l.text ++ e) = byteLen l.text + byteLen e := byteLen_append _ _
  unfold trimLine
  rw [if_neg (by omega)]
  apply slice_none
  intro a b hab ha
  obtain ⟨m, h1, _⟩ := divide_front (a := a) (b := b) (c := l.text) (d := e) hab.symm (by omega)
  exact hd (.inr ⟨a, m, h1, ha⟩)

/-! The whole text. -/

theorem trimLines_eq (n : Nat) (ls : List Line) (h : ∀ l ∈ ls, l.Ok)
    (hn : ∀ l ∈ ls, ¬ l.blank → n ≤ byteLen l.indent) (hd : ∀ l ∈ ls, l.Divides n) :
    ∃ outs, outs.length = ls.length ∧
      (∀ (i : Nat) l out, ls[i]? = some l → outs[i]? = some out → Unindented n l out) ∧
      ((splitInclusive (joinLines (ls.map Line.text))).mapM (trimLine n)).map List.flatten
        = some (joinLines outs) := by
  have nl : ∀ l ∈ ls, '\n' ∉ l.text := by
    intro l hl hm
    rcases List.mem_append.1 hm with hm | hm
    · exact ((h l hl).indent_space _ hm).2 rfl
    · exact (h l hl).rest_line hm
  induction ls with
  | nil => exact ⟨[], rfl, by intro i l out hi; simp at hi, rfl⟩
  | cons l ls ih =>
    cases ls with
    | nil =>
      obtain ⟨out, ho, hu⟩ := trimLine_eq n l (hn l (by simp)) (hd l (by simp)) [] (.inl rfl)
      refine ⟨[out], rfl, ?_, ?_⟩
      · intro i l' out' hi ho'
        cases i with
        | zero => simp at hi ho'; subst hi; subst ho'; exact hu
        | succ i => simp at hi
      · simp only [List.map_cons, List.map_nil, joinLines_single]
        rw [splitInclusive_last _ (nl l (by simp))]
        simp only [List.append_nil] at ho
        by_cases e : l.text = []
        · have hb : l.rest = [] ∧ l.indent = [] := by
            simp [Line.text] at e; exact ⟨e.2, e.1⟩
          have ho2 : out = [] := by
            rcases hu with ⟨a, b, h1, _, h3⟩ | ⟨_, _, h3, _⟩
            · rw [hb.2] at h1
              have := List.append_eq_nil_iff.1 h1.symm
              rw [h3, this.2, hb.1]; rfl
            · rw [hb.2] at h3
              exact List.suffix_nil.1 h3
          simp [e, ho2]
        · simp [e, ho]
    | cons m ms =>
      obtain ⟨out, ho, hu⟩ := trimLine_eq n l (hn l (by simp)) (hd l (by simp)) ['\n'] (.inr rfl)
      obtain ⟨outs, h1, h2, h3⟩ := ih (fun l hl => h l (by simp [hl])) (fun l hl => hn l (by simp [hl]))
        (fun l hl => hd l (by simp [hl])) (fun l hl => nl l (by simp [hl]))
      refine ⟨out :: outs, by simp [h1], ?_, ?_⟩
      · intro i l' out' hi ho'
        cases i with
        | zero => simp at hi ho'; subst hi; subst ho'; exact hu
        | succ i =>
          simp only [List.getElem?_cons_succ] at hi ho'
          exact h2 i l' out' hi ho'
      · simp only [List.map_cons, joinLines_cons]
        rw [splitInclusive_line _ _ (nl l (by simp))]
        obtain ⟨o2, os2, he⟩ : ∃ o2 os2, outs = o2 :: os2 := by
          cases outs with
          | nil => simp at h1
          | cons a b => exact ⟨a, b, rfl⟩
        rw [he, joinLines_cons, ← he]
        simp only [List.map_cons] at h3
        rw [List.mapM_cons, ho]
        cases hx : (splitInclusive (joinLines (m.text :: ms.map Line.text))).mapM (trimLine n) with
        | none => rw [hx] at h3; cases h3
        | some ts =>
          rw [hx] at h3
          simp at h3
          simp [h3]

theorem trimLines_none (n : Nat) (ls : List Line) (h : ∀ l ∈ ls, l.Ok) (hd : ∃ l ∈ ls, ¬ l.Divides n) :
    (splitInclusive (joinLines (ls.map Line.text))).mapM (trimLine n) = none := by
  have nl : ∀ l ∈ ls, '\n' ∉ l.text := by
    intro l hl hm
    rcases List.mem_append.1 hm with hm | hm
    · exact ((h l hl).indent_space _ hm).2 rfl
    · exact (h l hl).rest_line hm
  induction ls with
  | nil => obtain ⟨_, hl, _⟩ := hd; cases hl
  | cons l ls ih =>
    cases ls with
    | nil =>
      obtain ⟨l', hl, hd⟩ := hd
      rw [List.mem_singleton] at hl
      subst hl
      have hne : l'.text ≠ [] := fun e => hd (.inl (by rw [e]; exact Nat.zero_le _))
      simp only [List.map_cons, List.map_nil, joinLines_single]
      rw [splitInclusive_last _ (nl l' (by simp)), if_neg hne, List.mapM_cons]
      have := trimLine_none n l' hd []
      rw [List.append_nil] at this
      rw [this]; rfl
    | cons m ms =>
      simp only [List.map_cons, joinLines_cons]
      rw [splitInclusive_line _ _ (nl l (by simp)), List.mapM_cons]
      by_cases hl : l.Divides n
      · have := ih (fun l hl => h l (by simp [hl]))
          (by
            obtain ⟨l', hm, hd⟩ := hd
            rcases List.mem_cons.1 hm with rfl | hm
            · exact absurd hl hd
            · exact ⟨l', hm, hd⟩)
          (fun l hl => nl l (by simp [hl]))
        simp only [List.map_cons] at this
        rw [this]
        cases trimLine n (l.text ++ ['\n']) <;> rfl
      · rw [trimLine_none n l hl]; rfl

theorem trimIndent_lines (ls : List Line) (h : ∀ l ∈ ls, l.Ok) (n : Nat) (hn : CommonIndent ls n)
    (text : Text) (ht : text = '\n' :: joinLines (ls.map Line.text) ∨
      (text = joinLines (ls.map Line.text) ∧ text.head? ≠ some '\n')) :
    trimIndent text = ((splitInclusive (joinLines (ls.map Line.text))).mapM (trimLine n)).map List.flatten := by
  have e : (if text.head? = some '\n' then text.drop 1 else text) = joinLines (ls.map Line.text) := by
    rcases ht with rfl | ⟨e, h0⟩
    · simp
    · rw [if_neg h0, e]
  unfold trimIndent
  simp only [e, indentOf_eq ls h n hn]

/-- Removing indentation from any text that does not panic: every non-blank line loses exactly the smallest
indentation of a non-blank line, so at least one of them starts in the first column afterwards and relative
indentation is kept; blank lines lose leading white space only, and nothing else changes. The newline a text
may start with is dropped.  What is missing is `trim_indent_panics_iff`. -/
theorem trim_indent_partial (ls : List Line) (h : ∀ l ∈ ls, l.Ok) (n : Nat) (hn : CommonIndent ls n)
    (hd : ∀ l ∈ ls, l.Divides n) (text : Text) (ht : text = '\n' :: joinLines (ls.map Line.text) ∨
      (text = joinLines (ls.map Line.text) ∧ text.head? ≠ some '\n')) :
    ∃ outs, outs.length = ls.length ∧
      (∀ (i : Nat) l out, ls[i]? = some l → outs[i]? = some out → Unindented n l out) ∧
      trimIndent text = some (joinLines outs) := by
  obtain ⟨outs, h1, h2, h3⟩ := trimLines_eq n ls h hn.1 hd
  exact ⟨outs, h1, h2, by rw [trimIndent_lines ls h n hn text ht, h3]⟩

/-- Indentations are counted in bytes and are white space of all widths: the function panics exactly if the
smallest indentation ends inside a character of some line. -/
theorem trim_indent_panics_iff (ls : List Line) (h : ∀ l ∈ ls, l.Ok) (n : Nat) (hn : CommonIndent ls n)
    (text : Text) (ht : text = '\n' :: joinLines (ls.map Line.text) ∨
      (text = joinLines (ls.map Line.text) ∧ text.head? ≠ some '\n')) :
    trimIndent text = none ↔ ∃ l ∈ ls, ¬ l.Divides n := by
  constructor
  · intro hnone
    apply Classical.byContradiction
    intro hno
    obtain ⟨outs, _, _, h3⟩ := trim_indent_partial ls h n hn
      (fun l hl => Classical.byContradiction fun hd => hno ⟨l, hl, hd⟩) text ht
    rw [hnone] at h3; cases h3
  · intro hd
    rw [trimIndent_lines ls h n hn text ht, trimLines_none n ls h hd]; rfl

/-- Indentation of one-byte characters (spaces, tabs) never panics. -/
theorem trim_indent_one_byte (ls : List Line) (n : Nat) (hn : CommonIndent ls n)
    (hb : ∀ l ∈ ls, ∀ c ∈ l.indent, c.utf8Size = 1) (l : Line) (hl : l ∈ ls) : l.Divides n := by
  by_cases hc : n ≤ l.indent.length
  · refine .inr ⟨l.indent.take n, l.indent.drop n ++ l.rest, ?_, ?_⟩
    · rw [← List.append_assoc, List.take_append_drop]; rfl
    · rw [byteLen_ascii _ fun c hc => hb l hl c (List.mem_of_mem_take hc), List.length_take]; omega
  · have e := byteLen_ascii _ (hb l hl)
    refine .inl ?_
    by_cases hr : l.rest = []
    · rw [Line.text, hr, List.append_nil]; omega
    · have := hn.1 l hl hr; omega

/-- Every text is made of such lines, and they have a smallest indentation. -/
theorem trim_indent_covers (text : Text) : ∃ ls n, (∀ l ∈ ls, Line.Ok l) ∧ CommonIndent ls n ∧
    (text = '\n' :: joinLines (ls.map Line.text) ∨
      (text = joinLines (ls.map Line.text) ∧ text.head? ≠ some '\n')) := by
  have lines_of : ∀ t : Text, ∃ ls, (∀ l ∈ ls, Line.Ok l) ∧ ls ≠ [] ∧ t = joinLines (ls.map Line.text) := by
    have one : ∀ b : Text, '\n' ∉ b → ∃ l : Line, l.Ok ∧ l.text = b := by
      intro b hb
      have hs : b.takeWhile Lexer.isUnicodeWs ++ b.dropWhile Lexer.isUnicodeWs = b := List.takeWhile_append_dropWhile
      refine ⟨⟨b.takeWhile Lexer.isUnicodeWs, b.dropWhile Lexer.isUnicodeWs⟩, ⟨?_, ?_, ?_⟩, hs⟩
      · intro c hc
        have hw := List.all_eq_true.1 (List.all_takeWhile (p := Lexer.isUnicodeWs) (l := b)) c hc
        exact ⟨hw, fun e => hb (e ▸ (List.takeWhile_sublist _).subset hc)⟩
      · intro c hc
        have := List.head?_dropWhile_not Lexer.isUnicodeWs b
        simp only at hc
        rw [hc] at this
        simpa using this
      · intro hm; exact hb ((List.dropWhile_sublist _).subset hm)
    intro t
    induction t with
    | nil => exact ⟨[⟨[], []⟩], by simpa using ⟨by simp, by simp, by simp⟩, by simp, by simp [joinLines_single, Line.text]⟩
    | cons c t ih =>
      obtain ⟨ls, h1, h2, h3⟩ := ih
      by_cases hc : c = '\n'
      · refine ⟨⟨[], []⟩ :: ls, ?_, by simp, ?_⟩
        · intro l hl
          rcases List.mem_cons.1 hl with rfl | hl
          · exact ⟨by simp, by simp, by simp⟩
          · exact h1 l hl
        · cases ls with
          | nil => exact absurd rfl h2
          | cons m ms => simp only [List.map_cons, joinLines_cons] at h3 ⊢; rw [hc, ← h3]; rfl
      · cases ls with
        | nil => exact absurd rfl h2
        | cons m ms =>
          have hm : '\n' ∉ m.text := by
            intro hx
            rcases List.mem_append.1 hx with hx | hx
            · exact ((h1 m (by simp)).indent_space _ hx).2 rfl
            · exact (h1 m (by simp)).rest_line hx
          obtain ⟨l, hl1, hl2⟩ := one (c :: m.text) (by
            intro hx
            rcases List.mem_cons.1 hx with hx | hx
            · exact hc hx.symm
            · exact hm hx)
          refine ⟨l :: ms, ?_, by simp, ?_⟩
          · intro l' hl'
            rcases List.mem_cons.1 hl' with rfl | hl'
            · exact hl1
            · exact h1 l' (by simp [hl'])
          · rw [h3]
            cases ms with
            | nil => simp only [List.map_cons, List.map_nil, joinLines_single, hl2]
            | cons k ks => simp only [List.map_cons, joinLines_cons, hl2, List.cons_append]
  have common : ∀ ls : List Line, ∃ n, CommonIndent ls n := by
    intro ls
    induction ls with
    | nil => exact ⟨0, by simp, .inr ⟨rfl, by simp⟩⟩
    | cons l ls ih =>
      obtain ⟨n, h1, h2⟩ := ih
      by_cases hb : l.blank
      · refine ⟨n, ?_, ?_⟩
        · intro l' hl' hb'
          rcases List.mem_cons.1 hl' with rfl | hl'
          · exact absurd hb hb'
          · exact h1 l' hl' hb'
        · rcases h2 with ⟨l', hl', h⟩ | ⟨h0, hall⟩
          · exact .inl ⟨l', by simp [hl'], h⟩
          · refine .inr ⟨h0, ?_⟩
            intro l' hl'
            rcases List.mem_cons.1 hl' with rfl | hl'
            · exact hb
            · exact hall l' hl'
      · rcases h2 with ⟨l', hl', hb', e⟩ | ⟨h0, hall⟩
        · by_cases hle : n ≤ byteLen l.indent
          · refine ⟨n, ?_, .inl ⟨l', by simp [hl'], hb', e⟩⟩
            intro k hk hkb
            rcases List.mem_cons.1 hk with rfl | hk
            · exact hle
            · exact h1 k hk hkb
          · refine ⟨byteLen l.indent, ?_, .inl ⟨l, by simp, hb, rfl⟩⟩
            intro k hk hkb
            rcases List.mem_cons.1 hk with rfl | hk
            · exact Nat.le_refl _
            · have := h1 k hk hkb; omega
        · refine ⟨byteLen l.indent, ?_, .inl ⟨l, by simp, hb, rfl⟩⟩
          intro k hk hkb
          rcases List.mem_cons.1 hk with rfl | hk
          · exact Nat.le_refl _
          · exact absurd (hall k hk) hkb
  by_cases h0 : text.head? = some '\n'
  · cases text with
    | nil => cases h0
    | cons c t =>
      simp only [List.head?_cons, Option.some.injEq] at h0
      obtain ⟨ls, h1, _, h3⟩ := lines_of t
      obtain ⟨n, hn⟩ := common ls
      exact ⟨ls, n, h1, hn, .inl (by rw [h0, h3])⟩
  · obtain ⟨ls, h1, _, h3⟩ := lines_of text
    obtain ⟨n, hn⟩ := common ls
    exact ⟨ls, n, h1, hn, .inr ⟨h3, h0⟩⟩

/-- The text of the example in stdx/src/lib.rs. -/
example :
    let ls : List Line := [⟨"            ".toList, "fn main() {".toList⟩,
      ⟨"                ".toList, "return 92;".toList⟩, ⟨"            ".toList, "}".toList⟩,
      ⟨"        ".toList, []⟩]
    (∀ l ∈ ls, l.Ok) ∧ CommonIndent ls 12 ∧ (∀ l ∈ ls, ∀ c ∈ l.indent, c.utf8Size = 1) ∧
    trimIndent ('\n' :: joinLines (ls.map Line.text)) = some "fn main() {\n    return 92;\n}\n".toList := by
  refine ⟨?_, ?_, by decide, by decide⟩
  · simp only [List.mem_cons, List.not_mem_nil, or_false, forall_eq_or_imp, forall_eq]
    exact ⟨⟨by decide, by decide, by decide⟩, ⟨by decide, by decide, by decide⟩,
      ⟨by decide, by decide, by decide⟩, ⟨by decide, by decide, by decide⟩⟩
  · have e : ∀ k, byteLen (List.replicate k ' ') = k := fun k => by
      rw [byteLen_ascii _ (by intro c hc; rw [List.eq_of_mem_replicate hc]; decide), List.length_replicate]
    refine ⟨?_, .inl ⟨⟨"            ".toList, "fn main() {".toList⟩, by simp, by simp [Line.blank], e 12⟩⟩
    intro l hl hb
    simp only [List.mem_cons, List.not_mem_nil, or_false] at hl
    rcases hl with rfl | rfl | rfl | rfl
    · exact Nat.le_of_eq (e 12).symm
    · exact Nat.le_trans (by decide) (Nat.le_of_eq (e 16).symm)
    · exact Nat.le_of_eq (e 12).symm
    · exact absurd rfl hb

/-- Two spaces of one line end inside the wide space of another. -/
theorem trim_indent_panics : ∃ text, trimIndent text = none :=
  ⟨"　a\n  b".toList, by decide⟩

example : ∃ l ∈ [(⟨"　".toList, "a".toList⟩ : Line), ⟨"  ".toList, "b".toList⟩], ¬ l.Divides 2 :=
  ⟨⟨"　".toList, "a".toList⟩, by simp, by
    rintro (h | ⟨a, b, h1, h2⟩)
    · exact absurd h (by decide)
    · cases a with
      | nil => cases h2
      | cons c a =>
        have hc : '　' = c := by
          have := congrArg List.head? h1
          simpa [Line.text] using this
        subst hc
        have : Char.utf8Size '　' = 3 := by decide
        simp only [byteLen_cons, this] at h2
        omega⟩

end Verif.Stdx
