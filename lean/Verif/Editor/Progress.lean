import Verif.Editor.ProgressModel

set_option autoImplicit false

/-! Property C102: what the editor shows while something is downloaded. -/

namespace Verif.Editor.Progress

/-! ## Specification -/

/-- What is used of `Math.round((read / total) * 100)`: nothing is 0 %, everything is 100 %, more is not less. -/
structure Contract (round : Nat → Nat → Nat) : Prop where
  zero : ∀ total, 0 < total → round 0 total = 0
  all : ∀ total, 0 < total → round total total = 100
  mono : ∀ a b total, 0 < total → a ≤ b → round a total ≤ round b total

/-- The progress bar: the increments of the reports so far, added up. -/
def bar : List Report → Num
  | [] => .fin 0
  | r :: rs =>
    match r.increment, bar rs with
    | .fin a, .fin b => .fin (a + b)
    | _, _ => .nan

/-- The percentage written beside the bar: that of the last report. -/
def label (rs : List Report) : Num := match rs.getLast? with | some r => r.message | none => .fin 0

/-- The numbers written one after the other. -/
def Increasing : Int → List Report → Prop
  | _, [] => True
  | n, r :: rs => ∃ m, r.message = .fin m ∧ n < m ∧ Increasing m rs

/-! ## Lemmas -/

theorem bar_append (a : List Report) (r : Report) (n k : Int) (h : bar a = .fin n) (hr : r.increment = .fin k) :
    bar (a ++ [r]) = .fin (n + k) := by
  induction a generalizing n with
  | nil => cases h; simp [bar, hr]
  | cons x xs ih =>
    simp only [bar] at h
    split at h
    · rename_i p q hp hq
      cases h
      have := ih q hq
      simp only [List.cons_append, bar, hp, this]
      congr 1
      omega
    · cases h

theorem increasing_append (n : Int) (a : List Report) (r : Report) (m k : Int) (h : Increasing n a)
    (hl : (match a.getLast? with | some r => r.message | none => .fin n) = .fin m) (hr : r.message = .fin k) (hlt : m < k) :
    Increasing n (a ++ [r]) := by
  induction a generalizing n with
  | nil => simp at hl; subst hl; exact ⟨k, hr, hlt, trivial⟩
  | cons x xs ih =>
    obtain ⟨p, hp, hnp, hi⟩ := h
    refine ⟨p, hp, hnp, ih p hi ?_⟩
    cases xs with
    | nil => simp at hl; simp [← hl, hp]
    | cons y ys =>
      rw [List.getLast?_cons_cons] at hl
      cases hg : (y :: ys).getLast? with
      | none => simp at hg
      | some z => rw [hg] at hl; exact hl

/-- What holds during the download. -/
structure Inv (round : Nat → Nat → Nat) (total : Nat) (s : State) : Prop where
  last : s.last = .fin (round s.read total)
  label : label s.reports = s.last
  bar : bar s.reports = s.last
  inc : Increasing 0 s.reports

theorem inv_chunk {round : Nat → Nat → Nat} (hc : Contract round) {total : Nat} (ht : 0 < total) {s : State}
    (h : Inv round total s) (n : Nat) : Inv round total (s.chunk round total n) := by
  have h0 : total ≠ 0 := by omega
  have hm := hc.mono s.read (s.read + n) total ht (Nat.le_add_right _ _)
  have hl := h.last
  unfold State.chunk
  simp only [percentage, if_neg h0, hl, Num.differs]
  by_cases he : round (s.read + n) total = round s.read total
  · have : (((round (s.read + n) total : Nat) : Int) != ((round s.read total : Nat) : Int)) = false := by simp [he]
    rw [this]
    simp only [Bool.false_eq_true, if_false]
    exact ⟨by show Num.fin _ = Num.fin _; rw [he], h.label.trans hl, h.bar.trans hl, h.inc⟩
  · have : (((round (s.read + n) total : Nat) : Int) != ((round s.read total : Nat) : Int)) = true := by
      simp; omega
    rw [this]
    simp only [if_true]
    refine ⟨rfl, by simp [Progress.label], ?_, ?_⟩
    · rw [bar_append s.reports _ (round s.read total) (round (s.read + n) total - round s.read total) (h.bar.trans hl) rfl]
      congr 1
      omega
    · exact increasing_append 0 s.reports _ (round s.read total) (round (s.read + n) total) h.inc (h.label.trans hl) rfl (by omega)

theorem inv_all {round : Nat → Nat → Nat} (hc : Contract round) {total : Nat} (ht : 0 < total) (chunks : List Nat) (s : State)
    (h : Inv round total s) : Inv round total (chunks.foldl (State.chunk round total) s) ∧
      (chunks.foldl (State.chunk round total) s).read = s.read + chunks.sum := by
  induction chunks generalizing s with
  | nil => exact ⟨h, rfl⟩
  | cons n ns ih =>
    obtain ⟨h1, h2⟩ := ih _ (inv_chunk hc ht h n)
    refine ⟨h1, ?_⟩
    rw [List.foldl_cons, h2, List.sum_cons]
    unfold State.chunk
    simp only
    split <;> simp only [] <;> omega

/-! ## C102 -/

/-- C102: for a response that says its length, after any pieces of data the number shown is the percentage of what
has arrived, the bar stands at the same number, and the numbers shown only ever grow. -/
theorem progress_is_true_partial (round : Nat → Nat → Nat) (hc : Contract round) (total : Nat) (ht : 0 < total) (chunks : List Nat) :
    ∃ rs, reports round (.length total) chunks = some rs ∧ label rs = .fin (round chunks.sum total) ∧
      bar rs = .fin (round chunks.sum total) ∧ Increasing 0 rs := by
  have h0 : Inv round total ⟨0, .fin 0, []⟩ := ⟨by simp [hc.zero total ht], rfl, rfl, trivial⟩
  obtain ⟨h, hr⟩ := inv_all hc ht chunks _ h0
  simp only [Nat.zero_add] at hr
  refine ⟨_, rfl, ?_, ?_, h.inc⟩
  · rw [h.label, h.last, hr]
  · rw [h.bar, h.last, hr]

/-- C102: when everything has arrived the bar is full, and before that it is never more than full. -/
theorem progress_completes_partial (round : Nat → Nat → Nat) (hc : Contract round) (total : Nat) (ht : 0 < total) (chunks : List Nat)
    (hs : chunks.sum ≤ total) :
    ∃ rs n, reports round (.length total) chunks = some rs ∧ bar rs = .fin n ∧ 0 ≤ n ∧ n ≤ 100 ∧
      (chunks.sum = total → n = 100) := by
  obtain ⟨rs, h1, _, h3, _⟩ := progress_is_true_partial round hc total ht chunks
  refine ⟨rs, _, h1, h3, by omega, ?_, ?_⟩
  · have := hc.mono _ _ total ht hs
    rw [hc.all total ht] at this
    omega
  · intro he; rw [he, hc.all total ht]; rfl

/-- C102 fails: when the response does not say its length, the editor shows `Infinity%` from the first piece on,
and nothing else until the end. -/
theorem no_length_shows_infinity (round : Nat → Nat → Nat) (first : Nat) (h : 0 < first) (chunks : List Nat) :
    reports round .missing (first :: chunks) = some [⟨.infinity, .infinity⟩] := by
  have key : ∀ (chunks : List Nat) (s : State), 0 < s.read → s.last = .infinity →
      (chunks.foldl (State.chunk round 0) s).reports = s.reports := by
    intro chunks
    induction chunks with
    | nil => intro s _ _; rfl
    | cons n ns ih =>
      intro s h1 h2
      rw [List.foldl_cons]
      have : s.chunk round 0 n = { s with read := s.read + n } := by
        unfold State.chunk
        have hr : s.read + n ≠ 0 := by omega
        simp only [percentage, if_true, if_neg hr, h2, Num.differs, Bool.false_eq_true, if_false]
      rw [this]
      exact ih { s with read := s.read + n } (Nat.lt_of_lt_of_le h1 (Nat.le_add_right _ _)) h2
  have e : State.chunk round 0 ⟨0, .fin 0, []⟩ first = ⟨first, .infinity, [⟨.infinity, .infinity⟩]⟩ := by
    have hr : first ≠ 0 := by omega
    simp [State.chunk, percentage, hr, Num.differs, Num.sub]
  unfold reports
  simp only [Header.totalBytes, List.foldl_cons, e]
  rw [key chunks _ (by simpa using h) rfl]

/-- The percentage in exact arithmetic: `100 * read / total`, rounded, one half up. -/
def exactly (read total : Nat) : Nat := (200 * read + total) / (2 * total)

theorem exactly_contract : Contract exactly := by
  refine ⟨fun t h => ?_, fun t h => ?_, fun a b t h hab => ?_⟩
  · unfold exactly
    exact Nat.div_eq_of_lt (by omega)
  · unfold exactly
    have e : 200 * t + t = t + 2 * t * 100 := by omega
    rw [e, Nat.add_mul_div_left _ _ (by omega), Nat.div_eq_of_lt (by omega)]
  · unfold exactly
    exact Nat.div_le_div_right (by omega)

/-- C102 fails: the length of a compressed response is that of the compressed data, but what is counted is the
data itself; the editor shows more than 100 %. -/
theorem compressed_response_passes_100 :
    reports exactly (.length 50) [40, 60] = some [⟨.fin 80, .fin 80⟩, ⟨.fin 200, .fin 120⟩] := by decide

/-- C102 fails whenever at least one hundredth more arrives than was announced, in whatever pieces: the number and the
bar stand beyond 100. -/
theorem longer_response_passes_100 (total : Nat) (ht : 0 < total) (chunks : List Nat) (h : 101 * total ≤ 100 * chunks.sum) :
    ∃ rs n, reports exactly (.length total) chunks = some rs ∧ label rs = .fin n ∧ bar rs = .fin n ∧ 100 < n := by
  obtain ⟨rs, h1, h2, h3, _⟩ := progress_is_true_partial exactly exactly_contract total ht chunks
  refine ⟨rs, _, h1, h2, h3, ?_⟩
  have : 101 ≤ exactly chunks.sum total := by
    unfold exactly
    rw [Nat.le_div_iff_mul_le (by omega)]
    omega
  omega

/-- Witness of `longer_response_passes_100`. -/
example : 101 * 50 ≤ 100 * [40, 60].sum := by decide

/-- C102: a length that is no number is an error. -/
theorem bad_length_fails (round : Nat → Nat → Nat) (chunks : List Nat) : reports round .noNumber chunks = none := rfl

/-- Witness: small pieces are not all reported. -/
example : reports exactly (.length 1000) [3, 1, 1, 500, 495] =
    some [⟨.fin 1, .fin 1⟩, ⟨.fin 51, .fin 50⟩, ⟨.fin 100, .fin 49⟩] := by decide

end Verif.Editor.Progress
