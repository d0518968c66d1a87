import Verif.TestUtils.AnnotationsModel
import Verif.Lexer.Lemmas
import Verif.Stdx.Indent

set_option autoImplicit false

/-!
C70: annotations of fixtures.
-/

namespace Verif.TestUtils

open Lexer

namespace Spec

/-- The code before the first `//` of a line, and the text behind it. -/
def comment : Text → Option (Text × Text)
  | [] => none
  | c :: cs =>
    if c = '/' ∧ cs.head? = some '/' then some ([], cs.tail)
    else (comment cs).map fun (code, body) => (c :: code, body)

/-- A run of `^` from column `start` to column `stop`, and the text up to the next run. -/
structure Mark where
  start : Nat
  stop : Nat
  text : Text
  deriving DecidableEq, Repr

/-- The runs of `^` of a text that starts in column `col`. -/
def marks (col : Nat) : Text → List Mark
  | [] => []
  | c :: cs =>
    if c = '^' then
      if cs.head? = some '^' then (marks (col + 1) cs).modifyHead fun m => { m with start := col }
      else ⟨col, col + 1, cs.takeWhile (· ≠ '^')⟩ :: marks (col + 1) cs
    else marks (col + c.utf8Size) cs

/-- The bars of a text that starts in column `col`: the column behind the bar, and the text up to the next
bar. -/
def bars (col : Nat) : Text → List (Nat × Text)
  | [] => []
  | c :: cs =>
    if c = '|' then (col + 1, cs.takeWhile (· ≠ '|')) :: bars (col + 1) cs
    else bars (col + c.utf8Size) cs

/-- The marks in the comment of a line. -/
def marksOf (line : Text) : List Mark :=
  match comment line with
  | none => []
  | some (code, body) => marks (byteLen code + 2) body

/-- The bars in the comment of a line, if it has no marks. -/
def barsOf (line : Text) : List (Nat × Text) :=
  match comment line with
  | none => []
  | some (code, body) => if '^' ∈ body then [] else bars (byteLen code + 2) body

/-- The columns a mark can point to in a line: all, or those before the comment. -/
def room (line : Text) : Nat :=
  match comment line with
  | none => byteLen line
  | some (code, _) => byteLen code

/-- The start of the last line with room for the column; the earlier lines, the last one first. -/
def target : List Text → Nat → Option Nat
  | [], _ => none
  | line :: earlier, stop =>
    if stop ≤ room line then some (byteLen earlier.flatten) else target earlier stop

/-- The mark is for the whole file: the word `file` follows. -/
def Mark.isFile (m : Mark) : Bool := "file".toList.isPrefixOf m.text

/-- The words of the mark itself. -/
def Mark.words (m : Mark) : Text := Stdx.trim (if m.isFile then m.text.drop 4 else m.text)

/-- The lines a following line adds to the mark that ends in the column. -/
def continuation (next : Text) (stop : Nat) : Text :=
  (barsOf next).flatMap fun b => if b.1 = stop then '\n' :: Stdx.trim b.2 ++ ['\n'] else []

/-- What a mark denotes: a range of the text, and words. -/
def denotes (text : Text) (earlier : List Text) (m : Mark) : Option ((Nat × Nat) × Text) :=
  if m.isFile then some ((0, byteLen text), m.words)
  else (target earlier m.stop).map fun start => ((start + m.start, start + m.stop), m.words)

/-- The marks of a line with the words added by the next line. -/
def complete (next : Text) (ms : List Mark) (found : Found) : Found :=
  (ms.zip found).map fun (m, range, words) => (range, words ++ continuation next m.stop)

/-- The annotations of the lines behind `earlier`. -/
def annotations (text : Text) : List Text → List Text → Option Found
  | _, [] => some []
  | earlier, line :: rest =>
    -- every bar continues a mark of the line above
    if (barsOf line).all fun b => (marksOf (earlier.head?.getD [])).any fun m => m.stop == b.1 then
      match (marksOf line).mapM (denotes text earlier), annotations text (line :: earlier) rest with
      | some here, some more => some (complete (rest.head?.getD []) (marksOf line) here ++ more)
      | _, _ => none
    else none

end Spec

open Spec

/-! Searching. -/

theorem findChar_none {p : Char → Bool} {t : Text} (h : ∀ c ∈ t, p c = false) : findChar p t = none := by
  induction t with
  | nil => rfl
  | cons c cs ih =>
    rw [findChar, if_neg (by rw [h c (by simp)]; decide), ih fun d hd => h d (by simp [hd])]; rfl

theorem findChar_prefix {p : Char → Bool} {u : Text} {c : Char} (r : Text) (h : ∀ c ∈ u, p c = false) (hc : p c = true) :
    findChar p (u ++ c :: r) = some (byteLen u) := by
  induction u with
  | nil => simp [findChar, hc]
  | cons d u ih =>
    rw [List.cons_append, findChar, if_neg (by rw [h d (by simp)]; decide), ih fun e he => h e (by simp [he])]
    rfl

/-- Every text has no such character, or a first one. -/
theorem first_or_none (p : Char → Bool) (t : Text) :
    (∀ c ∈ t, p c = false) ∨ ∃ u c r, t = u ++ c :: r ∧ (∀ d ∈ u, p d = false) ∧ p c = true := by
  induction t with
  | nil => left; simp
  | cons c cs ih =>
    cases hc : p c with
    | true => exact .inr ⟨[], c, cs, rfl, by simp, hc⟩
    | false =>
      rcases ih with h | ⟨u, d, r, rfl, hu, hd⟩
      · exact .inl fun x hx => by
          rcases List.mem_cons.1 hx with rfl | hx
          · exact hc
          · exact h x hx
      · refine .inr ⟨c :: u, d, r, rfl, fun x hx => ?_, hd⟩
        rcases List.mem_cons.1 hx with rfl | hx
        · exact hc
        · exact hu x hx

theorem find_comment (line : Text) :
    match comment line with
    | none => find ['/', '/'] line = none
    | some (code, body) => find ['/', '/'] line = some (byteLen code) ∧ line = code ++ '/' :: '/' :: body := by
  induction line with
  | nil => simp [comment, find]
  | cons c cs ih =>
    by_cases h : c = '/' ∧ cs.head? = some '/'
    · obtain ⟨rfl, h⟩ := h
      cases cs with
      | nil => simp at h
      | cons d cs =>
        simp only [List.head?_cons, Option.some.injEq] at h
        subst h
        simp [comment, find]
    · have hp : ¬ (['/', '/'].isPrefixOf (c :: cs) = true) := by
        intro hp
        obtain ⟨r, hr⟩ := List.isPrefixOf_iff_prefix.1 hp
        simp only [List.cons_append, List.nil_append, List.cons.injEq] at hr
        exact h ⟨hr.1.symm, by rw [← hr.2]; rfl⟩
      simp only [comment, if_neg h, find, if_neg hp]
      cases hc : comment cs with
      | none => rw [hc] at ih; simp only at ih; simp [ih]
      | some x =>
        obtain ⟨code, body⟩ := x
        rw [hc] at ih
        simp only [Option.map_some] at ih ⊢
        obtain ⟨h1, h2⟩ := ih
        refine ⟨by rw [h1]; rfl, by rw [h2]; rfl⟩

/-! Marks. -/

theorem marks_skip (col : Nat) (u r : Text) (h : '^' ∉ u) : marks col (u ++ r) = marks (col + byteLen u) r := by
  induction u generalizing col with
  | nil => rfl
  | cons c u ih =>
    have hc : c ≠ '^' := fun e => h (by simp [e])
    rw [List.cons_append, marks, if_neg hc, ih _ fun hm => h (by simp [hm]), byteLen_cons, Nat.add_assoc]

theorem marks_run (col n : Nat) (r : Text) (h : r.head? ≠ some '^') :
    marks col (List.replicate (n + 1) '^' ++ r) =
      ⟨col, col + (n + 1), r.takeWhile (· ≠ '^')⟩ :: marks (col + (n + 1)) r := by
  induction n generalizing col with
  | zero => simp [marks, h]
  | succ n ih =>
    rw [List.replicate_succ, List.cons_append, marks, if_pos rfl,
      if_pos (by simp [List.replicate_succ]), ih]
    simp only [List.modifyHead_cons]
    rw [show col + 1 + (n + 1) = col + (n + 1 + 1) by omega]

theorem marks_free (col : Nat) (t : Text) (h : '^' ∉ t) : marks col t = [] := by
  have := marks_skip col t [] h
  simpa [marks] using this

theorem takeWhile_free {p : Char → Bool} {t : Text} (h : ∀ c ∈ t, p c = true) : t.takeWhile p = t := by
  induction t with
  | nil => rfl
  | cons c cs ih => rw [List.takeWhile_cons, if_pos (h c (by simp)), ih fun d hd => h d (by simp [hd])]

theorem takeWhile_stop {p : Char → Bool} {u : Text} {c : Char} (r : Text) (h : ∀ c ∈ u, p c = true) (hc : p c = false) :
    (u ++ c :: r).takeWhile p = u := by
  induction u with
  | nil => simp [hc]
  | cons d u ih => rw [List.cons_append, List.takeWhile_cons, if_pos (h d (by simp)), ih fun e he => h e (by simp [he])]

/-- The annotation of a mark. -/
def ofMark (m : Mark) : LineAnnotation := .annotation m.start m.stop m.words m.isFile

/-- The annotation of a bar. -/
def ofBar (b : Nat × Text) : LineAnnotation := .continuation b.1 (Stdx.trim b.2)

theorem runs (t : Text) : ∃ n r, t = List.replicate n '^' ++ r ∧ r.head? ≠ some '^' := by
  induction t with
  | nil => exact ⟨0, [], rfl, by simp⟩
  | cons c cs ih =>
    by_cases hc : c = '^'
    · obtain ⟨n, r, rfl, h⟩ := ih
      exact ⟨n + 1, r, by rw [hc]; rfl, h⟩
    · exact ⟨0, c :: cs, rfl, by simpa using hc⟩

theorem byteLen_carets (n : Nat) : byteLen (List.replicate n '^') = n := by
  induction n with
  | zero => rfl
  | succ n ih => rw [List.replicate_succ, byteLen_cons, ih, show '^'.utf8Size = 1 by decide]; omega

theorem takeWhile_carets (n : Nat) (r : Text) (h : r.head? ≠ some '^') :
    (List.replicate n '^' ++ r).takeWhile (· == '^') = List.replicate n '^' := by
  induction n with
  | zero =>
    cases r with
    | nil => rfl
    | cons c r =>
      simp only [List.head?_cons, ne_eq, Option.some.injEq] at h
      simp [h]
  | succ n ih => rw [List.replicate_succ, List.cons_append, List.takeWhile_cons, if_pos (by decide), ih]

theorem lineLoop_marks (fuel : Nat) : ∀ (line : Text) (offset : Nat), line.length < fuel →
    lineLoop (· == '^') fuel line offset = some ((marks offset line).map ofMark) := by
  induction fuel with
  | zero => intro line _ h; omega
  | succ fuel ih =>
    intro line offset hf
    rw [lineLoop]
    rcases first_or_none (· == '^') line with hn | ⟨u, c, r0, rfl, hu, hc⟩
    · rw [findChar_none hn]
      simp only
      rw [marks_free _ _ fun hm => by simpa using hn _ hm]; rfl
    · have hu' : '^' ∉ u := fun hm => by simpa using hu _ hm
      have hc' : c = '^' := by simpa using hc
      subst hc'
      obtain ⟨n, r, hr, hh⟩ := runs ('^' :: r0)
      cases n with
      | zero => rw [List.replicate_zero, List.nil_append] at hr; rw [← hr] at hh; simp at hh
      | succ n =>
        rw [findChar_prefix r0 hu hc, hr]
        simp only [sliceFrom_prefix]
        rw [takeWhile_carets _ _ hh]
        simp only [List.length_replicate, Bool.false_and, Bool.false_eq_true, if_false, show ((n + 1 == 0) = false) by simp]
        have hslice : sliceFrom (List.replicate (n + 1) '^' ++ r) (n + 1) = some r := by
          have := sliceFrom_prefix (List.replicate (n + 1) '^') r
          rwa [byteLen_carets] at this
        rw [hslice]
        simp only
        rw [marks_skip _ _ _ hu', marks_run _ _ _ hh]
        simp only [List.map_cons]
        have hlen : r.length < fuel := by
          have := congrArg List.length hr
          simp at this hf
          omega
        rcases first_or_none (· == '^') r with hn | ⟨v, d, q, rfl, hv, hd⟩
        · rw [findChar_none hn]
          have hnr : '^' ∉ r := fun hm => by simpa using hn _ hm
          have ht : r.takeWhile (· ≠ '^') = r :=
            takeWhile_free fun c hc => by simp only [decide_eq_true_eq]; rintro rfl; exact hnr hc
          simp only [byteLen_append, byteLen_carets, Nat.add_sub_cancel_left]
          have h1 := sliceRange_zero_prefix r []
          simp only [List.append_nil] at h1
          have h2 := sliceFrom_prefix (List.replicate (n + 1) '^' ++ r) []
          simp only [List.append_nil, byteLen_append, byteLen_carets] at h2
          rw [h1, h2]
          simp only
          rw [ih [] _ (by simp; omega), marks_free _ r hnr, ht]
          simp only [ofMark, Mark.words, Mark.isFile, startsWith, marks, List.map_nil, Option.map_some, Bool.not_false,
            Bool.true_and, Nat.add_assoc]
          rfl
        · have hv' : '^' ∉ v := fun hm => by simpa using hv _ hm
          have hd' : d = '^' := by simpa using hd
          subst hd'
          have ht : (v ++ '^' :: q).takeWhile (· ≠ '^') = v :=
            takeWhile_stop q (fun c hc => by simp only [decide_eq_true_eq]; rintro rfl; exact hv' hc) (by simp)
          rw [findChar_prefix q hv hd]
          simp only [Nat.add_sub_cancel]
          have h2 := sliceFrom_prefix (List.replicate (n + 1) '^' ++ v) ('^' :: q)
          simp only [byteLen_append, byteLen_carets, List.append_assoc] at h2
          rw [sliceRange_zero_prefix, show byteLen v + (n + 1) = n + 1 + byteLen v by omega, h2]
          simp only
          rw [ih _ _ (by simp at hlen ⊢; omega), ht, marks_skip _ v _ hv']
          simp only [ofMark, Mark.words, Mark.isFile, startsWith, Option.map_some, Bool.not_false, Bool.true_and]
          rw [show offset + byteLen u + (n + 1 + byteLen v) = offset + byteLen u + (n + 1) + byteLen v by omega]
          rfl

theorem bars_skip (col : Nat) (u r : Text) (h : '|' ∉ u) : bars col (u ++ r) = bars (col + byteLen u) r := by
  induction u generalizing col with
  | nil => rfl
  | cons c u ih =>
    have hc : c ≠ '|' := fun e => h (by simp [e])
    rw [List.cons_append, bars, if_neg hc, ih _ fun hm => h (by simp [hm]), byteLen_cons, Nat.add_assoc]

theorem bars_free (col : Nat) (t : Text) (h : '|' ∉ t) : bars col t = [] := by
  have := bars_skip col t [] h
  simpa [bars] using this

theorem lineLoop_bars (fuel : Nat) : ∀ (line : Text) (offset : Nat), line.length < fuel → '^' ∉ line →
    lineLoop (· == '|') fuel line offset = some ((bars offset line).map ofBar) := by
  induction fuel with
  | zero => intro line _ h; omega
  | succ fuel ih =>
    intro line offset hf hcaret
    rw [lineLoop]
    rcases first_or_none (· == '|') line with hn | ⟨u, c, r, rfl, hu, hc⟩
    · rw [findChar_none hn]
      simp only
      rw [bars_free _ _ fun hm => by simpa using hn _ hm]; rfl
    · have hu' : '|' ∉ u := fun hm => by simpa using hu _ hm
      have hc' : c = '|' := by simpa using hc
      subst hc'
      have hbar : '|'.utf8Size = 1 := by decide
      rw [findChar_prefix r hu hc]
      simp only [sliceFrom_prefix]
      rw [show ('|' :: r).takeWhile (· == '^') = [] by simp]
      simp only [List.length_nil, List.head?_cons, bne_self_eq_false, Bool.and_false, Bool.false_eq_true, if_false,
        beq_self_eq_true, if_true, Bool.not_true, Bool.false_and]
      have hslice : sliceFrom ('|' :: r) 1 = some r := by
        have := sliceFrom_prefix ['|'] r
        simpa [hbar] using this
      rw [hslice]
      simp only
      rw [bars_skip _ _ _ hu', bars, if_pos rfl]
      simp only [List.map_cons]
      have hcr : '^' ∉ r := fun hm => hcaret (by simp [hm])
      have hlen : r.length < fuel := by simp at hf; omega
      rcases first_or_none (· == '|') r with hn | ⟨v, d, q, rfl, hv, hd⟩
      · rw [findChar_none hn]
        have hnr : '|' ∉ r := fun hm => by simpa using hn _ hm
        have ht : r.takeWhile (· ≠ '|') = r :=
          takeWhile_free fun c hc => by simp only [decide_eq_true_eq]; rintro rfl; exact hnr hc
        simp only [byteLen_cons, hbar, Nat.add_sub_cancel_left]
        have h1 := sliceRange_zero_prefix r []
        simp only [List.append_nil] at h1
        have h2 := sliceFrom_prefix ('|' :: r) []
        simp only [List.append_nil, byteLen_cons, hbar] at h2
        rw [h1, h2]
        simp only
        rw [ih [] _ (by simp; omega) (by simp), bars_free _ r hnr, ht]
        rfl
      · have hv' : '|' ∉ v := fun hm => by simpa using hv _ hm
        have hd' : d = '|' := by simpa using hd
        subst hd'
        have ht : (v ++ '|' :: q).takeWhile (· ≠ '|') = v :=
          takeWhile_stop q (fun c hc => by simp only [decide_eq_true_eq]; rintro rfl; exact hv' hc) (by simp)
        rw [findChar_prefix q hv hd]
        simp only [Nat.add_sub_cancel]
        have h2 := sliceFrom_prefix ('|' :: v) ('|' :: q)
        simp only [byteLen_cons, hbar, List.cons_append] at h2
        rw [sliceRange_zero_prefix, show byteLen v + 1 = 1 + byteLen v by omega, h2]
        simp only
        rw [ih _ _ (by simp at hlen ⊢; omega) (fun hm => hcr (by simp at hm ⊢; exact .inr hm)), ht,
          bars_skip _ v _ hv']
        rw [show offset + byteLen u + (1 + byteLen v) = offset + byteLen u + 1 + byteLen v by omega]
        rfl

/-- The annotations of the comment of a line are its marks and bars. -/
theorem extractLine_eq (body : Text) :
    extractLineAnnotations body =
      some (if '^' ∈ body then (marks 0 body).map ofMark else (bars 0 body).map ofBar) := by
  unfold extractLineAnnotations
  by_cases h : '^' ∈ body
  · rw [if_pos (by simpa using h), if_pos h]
    exact lineLoop_marks _ _ _ (by omega)
  · rw [if_neg (by simpa using h), if_neg h]
    exact lineLoop_bars _ _ _ (by omega) h

theorem marks_shift (n col : Nat) (t : Text) :
    marks (col + n) t = (marks col t).map fun m => ⟨m.start + n, m.stop + n, m.text⟩ := by
  induction t generalizing col with
  | nil => rfl
  | cons c cs ih =>
    simp only [marks]
    have e : ∀ k, col + n + k = col + k + n := fun k => by omega
    split
    · split
      · rw [e, ih]
        cases marks (col + 1) cs <;> simp
      · rw [e, ih]; simp
    · rw [e, ih]

theorem bars_shift (n col : Nat) (t : Text) :
    bars (col + n) t = (bars col t).map fun b => (b.1 + n, b.2) := by
  induction t generalizing col with
  | nil => rfl
  | cons c cs ih =>
    simp only [bars]
    have e : ∀ k, col + n + k = col + k + n := fun k => by omega
    split
    · rw [e, ih]; simp
    · rw [e, ih]

/-- Marks end in different columns. -/
theorem marks_stops (col : Nat) (t : Text) :
    (∀ m ∈ marks col t, col < m.stop) ∧ ((marks col t).map Mark.stop).Nodup := by
  induction t generalizing col with
  | nil => simp [marks]
  | cons c cs ih =>
    simp only [marks]
    have ih1 := ih (col + 1)
    split
    · split
      · generalize marks (col + 1) cs = l at ih1
        cases l with
        | nil => simp
        | cons m l =>
          simp only [List.modifyHead_cons, List.mem_cons, List.map_cons] at ih1 ⊢
          refine ⟨?_, ih1.2⟩
          rintro x (rfl | hx)
          · have := ih1.1 m (.inl rfl); simp only; omega
          · have := ih1.1 x (.inr hx); omega
      · refine ⟨?_, ?_⟩
        · intro m hm
          rcases List.mem_cons.1 hm with rfl | hm
          · simp
          · have := ih1.1 m hm; omega
        · simp only [List.map_cons, List.nodup_cons]
          refine ⟨?_, ih1.2⟩
          intro hm
          obtain ⟨m, hm, e⟩ := List.mem_map.1 hm
          have := ih1.1 m hm
          omega
    · have ih2 := ih (col + c.utf8Size)
      exact ⟨fun m hm => by have := ih2.1 m hm; omega, ih2.2⟩

/-! The map from lengths to starts. -/

theorem mapInsert_bound (k v : Nat) (m : List (Nat × Nat)) (h : ∀ e ∈ m, k ≤ e.1) :
    ∃ m', mapInsert k v m = (k, v) :: m' ∧ ∀ b, k < b → mapFrom b m' = mapFrom b m := by
  cases m with
  | nil => exact ⟨[], rfl, fun _ _ => rfl⟩
  | cons e m =>
    obtain ⟨k', v'⟩ := e
    have hk : k ≤ k' := h (k', v') (by simp)
    simp only [mapInsert]
    split
    · exact ⟨_, rfl, fun _ _ => rfl⟩
    · have : k = k' := by omega
      rw [if_pos this]
      refine ⟨m, rfl, fun b hb => ?_⟩
      simp only [mapFrom, List.find?_cons]
      rw [show decide (b ≤ k') = false by simp; omega]

theorem mapFrom_splitOff (k b : Nat) (m : List (Nat × Nat)) (h : k ≤ b) :
    mapFrom b (mapSplitOff k m) = mapFrom b m := by
  simp only [mapFrom, mapSplitOff, List.find?_filter]
  congr 1
  funext e
  by_cases hb : b ≤ e.1
  · have : k ≤ e.1 := by omega
    simp [hb, this]
  · simp [hb]

/-- Registering a line: it is the target of all marks it has room for, the others keep theirs. -/
theorem mapFrom_register (len start b : Nat) (m : List (Nat × Nat)) :
    (mapFrom b (mapInsert len start (mapSplitOff len m))).map Prod.snd =
      if b ≤ len then some start else (mapFrom b m).map Prod.snd := by
  obtain ⟨m', e, h⟩ := mapInsert_bound len start (mapSplitOff len m) (by
    intro e he; simpa using (List.mem_filter.1 he).2)
  rw [e]
  by_cases hb : b ≤ len
  · simp [mapFrom, hb]
  · rw [if_neg hb, mapFrom, List.find?_cons, show decide (b ≤ len) = false by simpa using hb]
    have := h b (by omega)
    rw [mapFrom_splitOff _ _ _ (by omega)] at this
    rw [← this]; rfl

/-! The marks of a line. -/

/-- The entries of `prev_line_annotations` for marks whose annotations start at an index. -/
def prevOf : Nat → List Mark → List (Nat × Nat)
  | _, [] => []
  | i, m :: ms => (m.stop, i) :: prevOf (i + 1) ms

theorem fold_marks (text : Text) (earlier : List Text) (off : Nat) (map prev : List (Nat × Nat))
    (hmap : ∀ b, (mapFrom b map).map Prod.snd = target earlier b) (ms : List Mark) :
    ∀ (res : Found) (this : List (Nat × Nat)),
      (ms.map ofMark).foldlM (annotationStep (byteLen text) off map prev) (res, this) =
        match (ms.map fun m => (⟨m.start + off, m.stop + off, m.text⟩ : Mark)).mapM (denotes text earlier) with
        | none => none
        | some here => some (res ++ here,
            this ++ prevOf res.length (ms.map fun m => (⟨m.start + off, m.stop + off, m.text⟩ : Mark))) := by
  induction ms with
  | nil => intro res this; simp [prevOf]
  | cons m ms ih =>
    intro res this
    simp only [List.map_cons, List.foldlM_cons, List.mapM_cons, ofMark, annotationStep, denotes]
    have hw : ∀ (a b : Nat), Mark.words ⟨a, b, m.text⟩ = m.words := fun _ _ => rfl
    have hf : ∀ (a b : Nat), Mark.isFile ⟨a, b, m.text⟩ = m.isFile := fun _ _ => rfl
    simp only [hw, hf]
    have hm := hmap (m.stop + off)
    by_cases hfile : m.isFile = true
    · simp only [hfile, if_true, Option.bind_eq_bind, Option.bind_some, ih]
      cases (ms.map fun m => (⟨m.start + off, m.stop + off, m.text⟩ : Mark)).mapM (denotes text earlier) with
      | none => rfl
      | some here => simp [prevOf]
    · simp only [hfile, Bool.false_eq_true, if_false]
      cases hg : mapFrom (m.stop + off) map with
      | none =>
        rw [hg] at hm
        simp only [Option.map_none] at hm
        rw [← hm]
        rfl
      | some e =>
        obtain ⟨k, start⟩ := e
        rw [hg] at hm
        simp only [Option.map_some] at hm
        rw [← hm]
        simp only [Option.map_some, Option.bind_eq_bind, Option.bind_some, ih]
        cases (ms.map fun m => (⟨m.start + off, m.stop + off, m.text⟩ : Mark)).mapM (denotes text earlier) with
        | none => rfl
        | some here =>
          simp only [Option.bind_some, List.length_append, List.length_cons, List.length_nil, List.append_assoc,
            List.cons_append, List.nil_append, prevOf, Nat.zero_add, Nat.add_comm start]
          rfl

/-! The bars of a line. -/

/-- What one bar adds. -/
def addBar (b : Nat × Text) (ms : List Mark) (last : Found) : Found :=
  (ms.zip last).map fun (m, range, words) =>
    (range, words ++ if m.stop = b.1 then '\n' :: Stdx.trim b.2 ++ ['\n'] else [])

theorem addBar_none (b : Nat × Text) (ms : List Mark) (last : Found) (hl : last.length = ms.length)
    (h : ∀ m ∈ ms, m.stop ≠ b.1) : addBar b ms last = last := by
  induction ms generalizing last with
  | nil => cases last with
    | nil => rfl
    | cons _ _ => simp at hl
  | cons m ms ih =>
    cases last with
    | nil => simp at hl
    | cons e last =>
      have := ih last (by simpa using hl) fun m hm => h m (by simp [hm])
      simp only [addBar, List.zip_cons_cons, List.map_cons] at this ⊢
      rw [this, if_neg (h m (by simp))]
      simp

theorem find_bar (b : Nat × Text) (ms : List Mark) : ∀ (last : Found) (base : Nat), last.length = ms.length →
    (ms.map Mark.stop).Nodup →
    ((prevOf base ms).find? (fun e => e.1 == b.1) = none ∧ (ms.any fun m => m.stop == b.1) = false) ∨
    ∃ k, (prevOf base ms).find? (fun e => e.1 == b.1) = some (b.1, base + k) ∧
      (ms.any fun m => m.stop == b.1) = true ∧
      last.modify k (fun e => (e.1, e.2 ++ '\n' :: Stdx.trim b.2 ++ ['\n'])) = addBar b ms last := by
  induction ms with
  | nil => intro last base _ _; left; simp [prevOf]
  | cons m ms ih =>
    intro last base hl hn
    cases last with
    | nil => simp at hl
    | cons e last =>
      simp only [List.map_cons, List.nodup_cons] at hn
      by_cases hm : m.stop = b.1
      · right
        refine ⟨0, ?_, ?_, ?_⟩
        · simp [prevOf, hm]
        · simp [hm]
        · have hno : ∀ m' ∈ ms, m'.stop ≠ b.1 := by
            intro m' hm' e'
            exact hn.1 (List.mem_map.2 ⟨m', hm', by rw [e', hm]⟩)
          have := addBar_none b ms last (by simpa using hl) hno
          simp only [addBar] at this
          simp only [List.modify_zero_cons, addBar, List.zip_cons_cons, List.map_cons, hm, if_true, this,
            List.append_assoc]
      · rcases ih last (base + 1) (by simpa using hl) hn.2 with ⟨h1, h2⟩ | ⟨k, h1, h2, h3⟩
        · left
          refine ⟨?_, ?_⟩
          · rw [prevOf, List.find?_cons, show ((m.stop, base).1 == b.1) = false by simpa using hm]
            exact h1
          · rw [List.any_cons, h2, Bool.or_false]; simpa using hm
        · right
          refine ⟨k + 1, ?_, ?_, ?_⟩
          · rw [prevOf, List.find?_cons, show ((m.stop, base).1 == b.1) = false by simpa using hm]
            rw [show base + (k + 1) = base + 1 + k by omega]
            exact h1
          · rw [List.any_cons, h2, Bool.or_true]
          · rw [List.modify_succ_cons, h3]
            simp [addBar, hm]

/-- What bars add. -/
def addBars (bs : List (Nat × Text)) (ms : List Mark) (last : Found) : Found :=
  (ms.zip last).map fun (m, range, words) =>
    (range, words ++ bs.flatMap fun b => if b.1 = m.stop then '\n' :: Stdx.trim b.2 ++ ['\n'] else [])

theorem addBars_nil (ms : List Mark) (last : Found) (hl : last.length = ms.length) : addBars [] ms last = last := by
  induction ms generalizing last with
  | nil => cases last with
    | nil => rfl
    | cons _ _ => simp at hl
  | cons m ms ih =>
    cases last with
    | nil => simp at hl
    | cons e last =>
      have := ih last (by simpa using hl)
      simp only [addBars, List.flatMap_nil, List.append_nil] at this ⊢
      rw [List.zip_cons_cons, List.map_cons, this]

theorem addBars_cons (b : Nat × Text) (bs : List (Nat × Text)) (ms : List Mark) (last : Found) :
    addBars bs ms (addBar b ms last) = addBars (b :: bs) ms last := by
  induction ms generalizing last with
  | nil => rfl
  | cons m ms ih =>
    cases last with
    | nil => rfl
    | cons e last =>
      have := ih last
      simp only [addBars, addBar, List.zip_cons_cons, List.map_cons] at this ⊢
      rw [this]
      have hc : (m.stop = b.1) = (b.1 = m.stop) := propext ⟨Eq.symm, Eq.symm⟩
      simp only [List.flatMap_cons, List.append_assoc, hc]

theorem addBar_length (b : Nat × Text) (ms : List Mark) (last : Found) (hl : last.length = ms.length) :
    (addBar b ms last).length = ms.length := by simp [addBar, hl]

theorem modify_behind {A : Type} (f : A → A) (a b : List A) (k : Nat) :
    (a ++ b).modify (a.length + k) f = a ++ b.modify k f := by
  induction a with
  | nil => simp
  | cons x a ih =>
    rw [List.cons_append, List.length_cons, show a.length + 1 + k = a.length + k + 1 by omega, List.modify_succ_cons,
      ih, List.cons_append]

theorem fold_bars (textLen off : Nat) (map : List (Nat × Nat)) (done : Found) (ms : List Mark)
    (hn : (ms.map Mark.stop).Nodup) (bs : List (Nat × Text)) :
    ∀ (last : Found), last.length = ms.length →
      (bs.map ofBar).foldlM (annotationStep textLen off map (prevOf done.length ms)) (done ++ last, []) =
        if (bs.map fun b => (b.1 + off, b.2)).all fun b => ms.any fun m => m.stop == b.1 then
          some (done ++ addBars (bs.map fun b => (b.1 + off, b.2)) ms last, [])
        else none := by
  induction bs with
  | nil => intro last hl; simp [addBars_nil _ _ hl]
  | cons b bs ih =>
    intro last hl
    simp only [List.map_cons, List.foldlM_cons, ofBar, annotationStep, List.all_cons]
    rcases find_bar (b.1 + off, b.2) ms last done.length hl hn with ⟨h1, h2⟩ | ⟨k, h1, h2, h3⟩
    · simp only at h1 h2
      rw [h1, h2]
      rfl
    · simp only at h1 h2 h3
      rw [h1, h2, Bool.true_and]
      simp only [Option.bind_eq_bind, Option.bind_some]
      have hmod : (done ++ last).modify (done.length + k) (fun e => (e.1, e.2 ++ '\n' :: Stdx.trim b.2 ++ ['\n'])) =
          done ++ addBar (b.1 + off, b.2) ms last := by
        rw [← h3, modify_behind]
      simp only [List.append_assoc, List.cons_append] at hmod ⊢
      rw [hmod, ih _ (addBar_length _ _ _ hl), addBars_cons]

theorem marksOf_nodup (line : Text) : ((marksOf line).map Mark.stop).Nodup := by
  unfold marksOf
  split
  · simp
  · exact (marks_stops _ _).2

theorem complete_eq (next : Text) (ms : List Mark) (last : Found) :
    complete next ms last = addBars (barsOf next) ms last := rfl

theorem mapM_length {A B : Type} (f : A → Option B) (l : List A) (l' : List B) (h : l.mapM f = some l') :
    l'.length = l.length := by
  induction l generalizing l' with
  | nil => simp at h; simp [← h]
  | cons a l ih =>
    simp only [List.mapM_cons, Option.bind_eq_bind, Option.bind_eq_some_iff, Option.pure_def,
      Option.some.injEq] at h
    obtain ⟨b, _, l'', h2, rfl⟩ := h
    simp [ih _ h2]

theorem lines_eq (text : Text) (ls : List Text) :
    ∀ (earlier : List Text) (done last : Found) (s : AnnState), s.res = done ++ last →
      last.length = (marksOf (earlier.head?.getD [])).length →
      s.prev = prevOf done.length (marksOf (earlier.head?.getD [])) →
      s.lineStart = byteLen earlier.flatten →
      (∀ b, (mapFrom b s.lineStartMap).map Prod.snd = target earlier b) →
      (ls.foldlM (lineStep (byteLen text)) s).map AnnState.res =
        (annotations text earlier ls).map fun more =>
          done ++ complete (ls.head?.getD []) (marksOf (earlier.head?.getD [])) last ++ more := by
  induction ls with
  | nil =>
    intro earlier done last s hres hlen _ _ _
    have : barsOf [] = [] := rfl
    simp [annotations, hres, complete_eq, this, addBars_nil _ _ hlen]
  | cons line rest ih =>
    intro earlier done last s hres hlen hprev hstart hmap
    rw [List.foldlM_cons]
    have hfc := find_comment line
    have hstart' : s.lineStart + byteLen line = byteLen (line :: earlier).flatten := by
      simp [hstart, Nat.add_comm]
    have hmap' : ∀ b, (mapFrom b (mapInsert (room line) s.lineStart (mapSplitOff (room line) s.lineStartMap))).map
        Prod.snd = target (line :: earlier) b := by
      intro b
      rw [mapFrom_register, target, hstart, hmap]
    cases hc : comment line with
    | none =>
      rw [hc] at hfc
      have hroom : room line = byteLen line := by simp [room, hc]
      have hms : marksOf line = [] := by simp [marksOf, hc]
      have hbs : barsOf line = [] := by simp [barsOf, hc]
      simp only [lineStep, hfc, Option.bind_eq_bind, Option.bind_some]
      rw [ih (line :: earlier) (done ++ last) [] _ (by simp [hres]) (by simp [hms]) (by simp [hms, prevOf]) hstart'
        (by simpa [hroom] using hmap')]
      rw [annotations]
      simp only [hbs, hms, List.all_nil, if_true, List.head?_cons, Option.getD_some, List.mapM_nil, Option.pure_def,
        complete_eq, addBars_nil _ _ hlen]
      cases annotations text (line :: earlier) rest <;> simp [addBars]
    | some x =>
      obtain ⟨code, body⟩ := x
      rw [hc] at hfc
      obtain ⟨hfind, hline⟩ := hfc
      have hroom : room line = byteLen code := by simp [room, hc]
      have hslash : '/'.utf8Size = 1 := by decide
      have hsl : sliceFrom line (byteLen code + 2) = some body := by
        have := sliceFrom_prefix (code ++ ['/', '/']) body
        simp only [byteLen_append, byteLen_cons, byteLen_nil, hslash] at this
        rw [hline]
        simpa using this
      simp only [lineStep, hfind, hsl, extractLine_eq]
      by_cases hcaret : '^' ∈ body
      · have hbs : barsOf line = [] := by simp [barsOf, hc, hcaret]
        have hms : marksOf line = (marks 0 body).map
            fun m => (⟨m.start + (byteLen code + 2), m.stop + (byteLen code + 2), m.text⟩ : Mark) := by
          simp only [marksOf, hc]
          have := marks_shift (byteLen code + 2) 0 body
          rwa [Nat.zero_add] at this
        rw [if_pos hcaret, fold_marks text earlier _ _ _ hmap, ← hms, annotations]
        simp only [hbs, List.all_nil, if_true, List.head?_cons, Option.getD_some, complete_eq, addBars_nil _ _ hlen]
        cases hm : (marksOf line).mapM (denotes text earlier) with
        | none => rfl
        | some here =>
          simp only [Option.bind_eq_bind, Option.bind_some]
          rw [ih (line :: earlier) (done ++ last) here _ (by simp [hres]) (mapM_length _ _ _ hm) (by simp [hres]) hstart'
            (by simpa [hroom] using hmap')]
          cases annotations text (line :: earlier) rest <;> simp [complete_eq]
      · have hms : marksOf line = [] := by simp [marksOf, hc, marks_free _ _ hcaret]
        have hbs : barsOf line = (bars 0 body).map fun b => (b.1 + (byteLen code + 2), b.2) := by
          simp only [barsOf, hc, if_neg hcaret]
          have := bars_shift (byteLen code + 2) 0 body
          rwa [Nat.zero_add] at this
        rw [if_neg hcaret, hres, hprev, fold_bars _ _ _ _ _ (marksOf_nodup _) _ _ hlen, ← hbs, annotations]
        cases hall : (barsOf line).all fun b => (marksOf (earlier.head?.getD [])).any fun m => m.stop == b.1 with
        | false => rfl
        | true =>
          simp only [if_true, Option.bind_eq_bind, Option.bind_some, hms, List.mapM_nil, Option.pure_def, List.head?_cons,
            Option.getD_some]
          rw [ih (line :: earlier) (done ++ addBars (barsOf line) (marksOf (earlier.head?.getD [])) last) [] _ (by simp)
            (by simp [hms]) (by simp [hms, prevOf]) hstart' (by simpa [hroom] using hmap')]
          cases annotations text (line :: earlier) rest <;> simp [hms, complete_eq, addBars]

/-- C70: an annotation is a run of `^` in a comment; it denotes the same columns of the last line above that
has room for them, or the whole file, and its words are those behind it and those of the bars below its end.
Extraction panics exactly if a run has no such line or a bar no such mark. -/
theorem annotations_denote (text : Text) :
    extractAnnotations text = annotations text [] (Stdx.splitInclusive text) := by
  unfold extractAnnotations
  rw [lines_eq text _ [] [] [] _ rfl rfl rfl rfl fun b => rfl]
  cases annotations text [] (Stdx.splitInclusive text) <;> simp [complete]

theorem marks_start_lt (col : Nat) (t : Text) : ∀ m ∈ marks col t, m.start < m.stop := by
  induction t generalizing col with
  | nil => simp [marks]
  | cons c cs ih =>
    intro m hm
    simp only [marks] at hm
    split at hm
    · split at hm
      · have ih1 := ih (col + 1)
        have hs := (marks_stops (col + 1) cs).1
        generalize marks (col + 1) cs = l at hm ih1 hs
        cases l with
        | nil => simp at hm
        | cons x l =>
          simp only [List.modifyHead_cons, List.mem_cons] at hm
          rcases hm with rfl | hm
          · have := hs x (by simp); simp only; omega
          · exact ih1 m (by simp [hm])
      · rcases List.mem_cons.1 hm with rfl | hm
        · simp
        · exact ih _ m hm
    · exact ih _ m hm

theorem mem_mapM {A B : Type} (f : A → Option B) (l : List A) (l' : List B) (h : l.mapM f = some l') {b : B} (hb : b ∈ l') :
    ∃ a ∈ l, f a = some b := by
  induction l generalizing l' with
  | nil => simp at h; subst h; simp at hb
  | cons a l ih =>
    simp only [List.mapM_cons, Option.bind_eq_bind, Option.bind_eq_some_iff, Option.pure_def,
      Option.some.injEq] at h
    obtain ⟨b', h1, l'', h2, rfl⟩ := h
    rcases List.mem_cons.1 hb with rfl | hb
    · exact ⟨a, by simp, h1⟩
    · obtain ⟨a', ha, h3⟩ := ih _ h2 hb
      exact ⟨a', by simp [ha], h3⟩

theorem target_some {earlier : List Text} {stop start : Nat} (h : target earlier stop = some start) :
    ∃ after line before, earlier = after ++ line :: before ∧ start = byteLen before.flatten ∧ stop ≤ room line ∧
      ∀ l ∈ after, room l < stop := by
  induction earlier with
  | nil => simp [target] at h
  | cons l earlier ih =>
    simp only [target] at h
    split at h
    · next hs => exact ⟨[], l, earlier, rfl, (Option.some.inj h).symm, hs, by simp⟩
    · next hs =>
      obtain ⟨after, line, before, rfl, h1, h2, h3⟩ := ih h
      refine ⟨l :: after, line, before, rfl, h1, h2, ?_⟩
      intro x hx
      rcases List.mem_cons.1 hx with rfl | hx
      · omega
      · exact h3 x hx

theorem byteLen_flatten_reverse (ls : List Text) : byteLen ls.reverse.flatten = byteLen ls.flatten := by
  induction ls with
  | nil => rfl
  | cons l ls ih => simp [ih, Nat.add_comm]

theorem annotations_inside (text : Text) (ls earlier : List Text) (found : Found)
    (h : annotations text earlier ls = some found) (range : Nat × Nat) (words : Text) (hm : (range, words) ∈ found) :
    range = (0, byteLen text) ∨
    ∃ before line after, earlier.reverse ++ ls = before ++ line :: after ∧
      byteLen before.flatten ≤ range.1 ∧ range.1 < range.2 ∧ range.2 ≤ byteLen before.flatten + room line := by
  induction ls generalizing earlier found with
  | nil => simp [annotations] at h; subst h; simp at hm
  | cons line rest ih =>
    rw [annotations] at h
    split at h
    · split at h
      · next here more h1 h2 =>
        obtain rfl := Option.some.inj h
        rcases List.mem_append.1 hm with hm | hm
        · obtain ⟨⟨m, r, w⟩, hz, e⟩ := List.mem_map.1 hm
          simp only [Prod.mk.injEq] at e
          obtain ⟨rfl, -⟩ := e
          obtain ⟨m', hm', hd⟩ := mem_mapM _ _ _ h1 (List.of_mem_zip hz).2
          have hlt : m'.start < m'.stop := by
            unfold marksOf at hm'
            split at hm'
            · simp at hm'
            · exact marks_start_lt _ _ _ hm'
          unfold denotes at hd
          split at hd
          · exact .inl (congrArg Prod.fst (Option.some.inj hd)).symm
          · right
            obtain ⟨start, hs, e⟩ := Option.map_eq_some_iff.1 hd
            simp only [Prod.mk.injEq] at e
            obtain ⟨rfl, -⟩ := e
            obtain ⟨after, l, before, rfl, rfl, h4, -⟩ := target_some hs
            refine ⟨before.reverse, l, after.reverse ++ line :: rest, by simp, ?_⟩
            rw [byteLen_flatten_reverse]
            simp only
            omega
        · have := ih (line :: earlier) more h2 hm
          simpa using this
      · cases h
    · cases h

/-- C70: an annotation points to the whole file or to a non-empty range inside one line of the text, before
the line's comment. -/
theorem annotation_ranges (text : Text) (found : Found) (h : extractAnnotations text = some found)
    (range : Nat × Nat) (words : Text) (hm : (range, words) ∈ found) :
    range = (0, byteLen text) ∨
    ∃ before line after, Stdx.splitInclusive text = before ++ line :: after ∧
      byteLen before.flatten ≤ range.1 ∧ range.1 < range.2 ∧ range.2 ≤ byteLen before.flatten + room line := by
  rw [annotations_denote] at h
  simpa using annotations_inside text _ [] found h range words hm

/-- The documentation speaks of multi-line values, but the third line of one is a panic. -/
theorem third_line_panics :
    extractAnnotations "xxx\n//^ a\n//| b\n//| c\n".toList = none ∧
    (extractAnnotations "xxx\n//^ a\n//| b\n".toList).isSome := by decide +kernel

/-- The two tests of the code, test_utils/src/lib.rs:319-362. -/
example : extractAnnotations "fn main() {\n    (x,   y);\n   //^ a\n      //  ^ b\n  //^^^^^^^^ c\n}".toList =
    some [((17, 18), ['a']), ((22, 23), ['b']), ((16, 24), ['c'])] := by decide +kernel

example : extractAnnotations
    "fn main() {\n    let (x,     y) = (9, 2);\n       //^ def  ^ def\n    zoo + 1\n} //^^^ type:\n  //  | i32\n\n// ^file\n    ".toList =
    some [((21, 22), "def".toList), ((28, 29), "def".toList), ((67, 70), "type:\ni32\n".toList), ((0, 115), [])] := by
  decide +kernel

end Verif.TestUtils
