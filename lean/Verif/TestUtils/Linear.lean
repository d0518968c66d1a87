set_option autoImplicit false

/-!
C109: the check that measurements look linear.

Numbers are rationals: the rounding of `f64` is not modelled.  A division by zero, which gives an infinity or NaN in
the code, is dealt with at each place it can occur: in the end all comparisons with NaN are false.
-/

namespace Verif.Measure

/-- Sums in the order of the list, assert_linear.rs:75-80, 88-92 and 109. -/
def sum : List Rat → Rat
  | [] => 0
  | x :: xs => x + sum xs

/-- assert_linear.rs:108-110, `mean`. -/
def mean (xs : List Rat) : Rat := sum xs / xs.length

/-- assert_linear.rs:104, `max_by`; `none` is the panic of `unwrap`. -/
def maxOf : List Rat → Option Rat
  | [] => none
  | x :: xs =>
    match maxOf xs with
    | none => some x
    | some m => some (if x ≤ m then m else x)

def absOf (x : Rat) : Rat := if x < 0 then -x else x

/-- `num`, assert_linear.rs:78. -/
def slopeNum (pts : List (Rat × Rat)) : Rat :=
  sum (pts.map fun p => (p.1 - mean (pts.map (·.1))) * (p.2 - mean (pts.map (·.2))))

/-- `denom`, assert_linear.rs:79. -/
def slopeDen (pts : List (Rat × Rat)) : Rat :=
  sum (pts.map fun p => (p.1 - mean (pts.map (·.1))) * (p.1 - mean (pts.map (·.1))))

/-- assert_linear.rs:74-82, `b`. -/
def slope (pts : List (Rat × Rat)) : Rat := slopeNum pts / slopeDen pts

/-- assert_linear.rs:84, `a`. -/
def intercept (pts : List (Rat × Rat)) : Rat := mean (pts.map (·.2)) - slope pts * mean (pts.map (·.1))

/-- `y_pred - y`, assert_linear.rs:91-93. -/
def miss (pts : List (Rat × Rat)) (p : Rat × Rat) : Rat := intercept pts + slope pts * p.1 - p.2

/-- assert_linear.rs:89-96, `max_error`. -/
def maxError (pts : List (Rat × Rat)) : Rat := (pts.map fun p => absOf (miss pts p)).foldr max 0

/-- assert_linear.rs:88-96, `se`. -/
def squares (pts : List (Rat × Rat)) : Rat := sum (pts.map fun p => miss pts p * miss pts p)

/-- assert_linear.rs:98-101, where `rmse < 0.05` is written without the root. -/
def accepts (pts : List (Rat × Rat)) : Bool :=
  decide (squares pts / pts.length < 1 / 400 ∧ maxError pts < 1 / 10 ∧ intercept pts > -(1 / 10))

/-- assert_linear.rs:63-111, `Round::finish`: the new value of `linear`.  `none` is a panic.  If the largest value of a
coordinate is 0, it is divided by itself, and the means are NaN; if all first coordinates are the same, `num` and `denom` are
0, and `b` is NaN. -/
def finish (samples : List (Rat × Rat)) : Option Bool :=
  match maxOf (samples.map (·.1)), maxOf (samples.map (·.2)) with
  | some mx, some my =>
    if mx = 0 ∨ my = 0 then some false
    else
      let pts := samples.map fun p => (p.1 / mx, p.2 / my)
      if slopeDen pts = 0 then some false else some (accepts pts)
  | _, _ => none

/-- assert_linear.rs:21-31; the text `plot` is left out. -/
structure Round where
  samples : List (Rat × Rat)
  linear : Bool

/-- assert_linear.rs:34-43, `next_round`: the last round is finished; `none` is a panic. -/
def nextRound (rounds : List Round) : Option (Bool × List Round) :=
  match rounds.reverse with
  | [] => some (true, [⟨[], false⟩])
  | r :: before =>
    match finish r.samples with
    | none => none
    | some b =>
      let rounds := before.reverse ++ [⟨r.samples, b⟩]
      if rounds.any (·.linear) ∨ rounds.length = 4 then some (false, rounds)
      else some (true, rounds ++ [⟨[], false⟩])

/-- assert_linear.rs:45-47, `sample`, for all the measurements of a round; `none` is a panic. -/
def measure (rounds : List Round) (data : List (Rat × Rat)) : Option (List Round) :=
  match rounds.reverse with
  | [] => none
  | r :: before => some (before.reverse ++ [⟨r.samples ++ data, r.linear⟩])

/-- How a test ends. -/
inductive Verdict where
  | passed
  /-- `Doesn't look linear!` -/
  | failed
  /-- any other panic -/
  | broken
  deriving DecidableEq

/-- assert_linear.rs:51-59, `drop`. -/
def drop (rounds : List Round) : Verdict :=
  if rounds.isEmpty then .broken else if rounds.all (fun r => !r.linear) then .failed else .passed

/-- `while fit.next_round() { for … { fit.sample(…) } }` and the end of the scope.  `data i` are the measurements of the
`i`-th round; the result has the number of rounds measured.  `fuel` bounds the calls of `next_round`. -/
def test (data : Nat → List (Rat × Rat)) : Nat → Nat → List Round → Option (Verdict × Nat)
  | 0, _, _ => none
  | fuel + 1, i, rounds =>
    match nextRound rounds with
    | none => some (.broken, i)
    | some (false, rounds) => some (drop rounds, i)
    | some (true, rounds) =>
      match measure rounds (data i) with
      | none => some (.broken, i)
      | some rounds => test data fuel (i + 1) rounds

/-! ### Sums -/

theorem sum_add {α : Type} (l : List α) (f g : α → Rat) : sum (l.map fun p => f p + g p) = sum (l.map f) + sum (l.map g) := by
  induction l with
  | nil => simp only [List.map_nil, sum]; grind
  | cons x l ih => simp only [List.map_cons, sum]; grind

theorem sum_mul {α : Type} (l : List α) (c : Rat) (f : α → Rat) : sum (l.map fun p => c * f p) = c * sum (l.map f) := by
  induction l with
  | nil => simp [sum]
  | cons x l ih => simp only [List.map_cons, sum]; grind

theorem sum_const {α : Type} (l : List α) (c : Rat) : sum (l.map fun _ => c) = c * l.length := by
  induction l with
  | nil => simp [sum]
  | cons x l ih => simp only [List.map_cons, sum, List.length_cons]; grind

theorem sum_congr {α : Type} {l : List α} {f g : α → Rat} (h : ∀ p ∈ l, f p = g p) : sum (l.map f) = sum (l.map g) := by
  rw [List.map_congr_left h]

theorem sum_le {α : Type} {l : List α} {f g : α → Rat} (h : ∀ p ∈ l, f p ≤ g p) : sum (l.map f) ≤ sum (l.map g) := by
  induction l with
  | nil => exact Rat.le_refl
  | cons x l ih =>
    have h1 := h x List.mem_cons_self
    have h2 := ih fun p hp => h p (List.mem_cons_of_mem _ hp)
    simp only [List.map_cons, sum]
    grind

theorem length_pos {α : Type} {l : List α} (h : l ≠ []) : (0 : Rat) < l.length := by
  have := List.length_pos_iff.2 h
  exact_mod_cast this

theorem mean_affine {α : Type} {l : List α} (hl : l ≠ []) (c s : Rat) (f : α → Rat) :
    mean (l.map fun p => c + s * f p) = c + s * mean (l.map f) := by
  have h := length_pos hl
  unfold mean
  rw [sum_add l (fun _ => c) (fun p => s * f p), sum_const, sum_mul, List.length_map, List.length_map]
  grind

/-! ### Regression -/

/-- The points with their second coordinates changed. -/
def affine (c s : Rat) (pts : List (Rat × Rat)) : List (Rat × Rat) := pts.map fun p => (p.1, c + s * p.2)

theorem affine_fst (c s : Rat) (pts : List (Rat × Rat)) : (affine c s pts).map (·.1) = pts.map (·.1) := by
  simp [affine]

theorem affine_mean {pts : List (Rat × Rat)} (h : pts ≠ []) (c s : Rat) :
    mean ((affine c s pts).map (·.2)) = c + s * mean (pts.map (·.2)) := by
  rw [← mean_affine h c s (fun p => p.2)]
  simp [affine, Function.comp_def]

theorem affine_den (c s : Rat) (pts : List (Rat × Rat)) : slopeDen (affine c s pts) = slopeDen pts := by
  unfold slopeDen
  rw [affine_fst]
  simp [affine, Function.comp_def]

theorem affine_slope {pts : List (Rat × Rat)} (h : pts ≠ []) (c s : Rat) : slope (affine c s pts) = s * slope pts := by
  have hn : slopeNum (affine c s pts) = s * slopeNum pts := by
    unfold slopeNum
    rw [affine_fst, affine_mean h, ← sum_mul]
    simp only [affine, List.map_map]
    refine sum_congr fun p _ => ?_
    simp only [Function.comp]
    grind
  unfold slope
  rw [hn, affine_den]
  grind

theorem affine_intercept {pts : List (Rat × Rat)} (h : pts ≠ []) (c s : Rat) :
    intercept (affine c s pts) = c + s * intercept pts := by
  unfold intercept
  rw [affine_mean h, affine_slope h, affine_fst]
  grind

theorem affine_miss {pts : List (Rat × Rat)} (h : pts ≠ []) (c s : Rat) (p : Rat × Rat) :
    miss (affine c s pts) (p.1, c + s * p.2) = s * miss pts p := by
  unfold miss
  rw [affine_intercept h, affine_slope h]
  grind

theorem sum_nonneg {α : Type} {l : List α} {f : α → Rat} (h : ∀ p ∈ l, 0 ≤ f p) : 0 ≤ sum (l.map f) := by
  have := sum_le (f := fun _ => (0 : Rat)) (g := f) h
  rw [sum_const] at this
  grind

theorem square_nonneg (x : Rat) : 0 ≤ x * x := by
  rcases Rat.le_total (a := 0) (b := x) with h | h
  · exact Rat.mul_nonneg h h
  · have := Rat.mul_nonneg (a := -x) (b := -x) (by grind) (by grind)
    grind

theorem squares_zero {α : Type} {l : List α} {f : α → Rat} (h : sum (l.map fun p => f p * f p) = 0) :
    ∀ p ∈ l, f p = 0 := by
  induction l with
  | nil => simp
  | cons x l ih =>
    simp only [List.map_cons, sum] at h
    have h1 := square_nonneg (f x)
    have h2 : 0 ≤ sum (l.map fun p => f p * f p) := sum_nonneg fun p _ => square_nonneg _
    have h3 : f x * f x = 0 := by grind
    intro p hp
    rcases List.mem_cons.1 hp with rfl | hp
    · rcases Rat.mul_eq_zero.1 h3 with h3 | h3 <;> exact h3
    · exact ih (by grind) p hp

theorem den_pos {pts : List (Rat × Rat)} {p q : Rat × Rat} (hp : p ∈ pts) (hq : q ∈ pts) (h : p.1 ≠ q.1) :
    slopeDen pts ≠ 0 := by
  intro e
  have := squares_zero e
  have h1 := this p hp
  have h2 := this q hq
  grind

theorem maxError_le {pts : List (Rat × Rat)} {e : Rat} (he : 0 ≤ e) (h : ∀ p ∈ pts, absOf (miss pts p) ≤ e) :
    maxError pts ≤ e := by
  have key : ∀ l : List Rat, (∀ x ∈ l, x ≤ e) → l.foldr max 0 ≤ e := by
    intro l hl
    induction l with
    | nil => exact he
    | cons x l ih =>
      have h1 := hl x List.mem_cons_self
      have h2 := ih fun y hy => hl y (List.mem_cons_of_mem _ hy)
      simp only [List.foldr_cons]
      grind
  refine key _ fun x hx => ?_
  obtain ⟨p, hp, rfl⟩ := List.mem_map.1 hx
  exact h p hp

theorem le_maxError {pts : List (Rat × Rat)} {p : Rat × Rat} (hp : p ∈ pts) : absOf (miss pts p) ≤ maxError pts := by
  have key : ∀ l : List Rat, ∀ x ∈ l, x ≤ l.foldr max 0 := by
    intro l
    induction l with
    | nil => simp
    | cons y l ih =>
      intro x hx
      simp only [List.foldr_cons]
      rcases List.mem_cons.1 hx with rfl | hx
      · grind
      · have := ih x hx
        grind
  exact key _ _ (List.mem_map.2 ⟨p, hp, rfl⟩)

theorem maxError_nonneg (pts : List (Rat × Rat)) : 0 ≤ maxError pts := by
  unfold maxError
  generalize (pts.map fun p => absOf (miss pts p)) = l
  induction l with
  | nil => exact Rat.le_refl
  | cons x l ih => simp only [List.foldr_cons]; grind

theorem absOf_mul (s x : Rat) (hs : 0 ≤ s) : absOf (s * x) = s * absOf x := by
  unfold absOf
  rcases Rat.le_total (a := 0) (b := x) with h | h
  · have := Rat.mul_nonneg hs h
    rw [if_neg (by grind), if_neg (by grind)]
  · have := Rat.mul_nonneg (a := s) (b := -x) hs (by grind)
    by_cases hx : x = 0
    · subst hx
      rw [Rat.mul_zero, if_neg (by grind), Rat.mul_zero]
    · split <;> split <;> grind

/-- If all misses are small, the errors are. -/
theorem small_misses {pts : List (Rat × Rat)} (h : pts ≠ []) {e : Rat} (he : 0 ≤ e) (he2 : e < 1 / 20)
    (hm : ∀ p ∈ pts, absOf (miss pts p) ≤ e) : squares pts / pts.length < 1 / 400 ∧ maxError pts < 1 / 10 := by
  have h1 := maxError_le he hm
  refine ⟨?_, by grind⟩
  have hl := length_pos h
  rw [Rat.div_lt_iff hl]
  have h2 : squares pts ≤ sum (pts.map fun _ => e * e) := by
    refine sum_le fun p hp => ?_
    have h3 := hm p hp
    have h4 : absOf (miss pts p) * absOf (miss pts p) = miss pts p * miss pts p := by
      unfold absOf; split <;> grind
    have h5 : 0 ≤ absOf (miss pts p) := by unfold absOf; split <;> grind
    have h6 := Rat.mul_le_mul_of_nonneg_left h3 h5
    have h7 := Rat.mul_le_mul_of_nonneg_right h3 he
    grind
  rw [sum_const] at h2
  have h3 : e * e < 1 / 400 := by
    have := Rat.mul_le_mul_of_nonneg_left (Rat.le_of_lt he2) he
    grind
  have h4 := Rat.mul_lt_mul_of_pos_right h3 hl
  grind

theorem maxOf_mem {l : List Rat} {m : Rat} (h : maxOf l = some m) : m ∈ l ∧ ∀ x ∈ l, x ≤ m := by
  induction l generalizing m with
  | nil => cases h
  | cons x l ih =>
    rw [maxOf] at h
    cases e : maxOf l with
    | none =>
      rw [e] at h
      cases h
      cases l with
      | nil => exact ⟨List.mem_cons_self, by simp⟩
      | cons y l =>
        rw [maxOf] at e
        split at e <;> cases e
    | some n =>
      rw [e] at h
      obtain ⟨h1, h2⟩ := ih e
      simp only [Option.some.injEq] at h
      subst h
      split
      · rename_i hx
        refine ⟨List.mem_cons_of_mem _ h1, ?_⟩
        intro y hy
        rcases List.mem_cons.1 hy with rfl | hy
        · exact hx
        · exact h2 y hy
      · rename_i hx
        refine ⟨List.mem_cons_self, ?_⟩
        intro y hy
        rcases List.mem_cons.1 hy with rfl | hy
        · exact Rat.le_refl
        · have := h2 y hy
          grind

theorem maxOf_eq {l : List Rat} {m : Rat} (h1 : m ∈ l) (h2 : ∀ x ∈ l, x ≤ m) : maxOf l = some m := by
  cases e : maxOf l with
  | none =>
    cases l with
    | nil => cases h1
    | cons y l =>
      rw [maxOf] at e
      split at e <;> cases e
  | some n =>
    obtain ⟨h3, h4⟩ := maxOf_mem e
    have h5 := h2 n h3
    have h6 := h4 m h1
    rw [Rat.le_antisymm h5 h6]

/-- What `finish` says when no division by zero occurs. -/
theorem finish_eq {samples : List (Rat × Rat)} {mx my : Rat} (hx : maxOf (samples.map (·.1)) = some mx)
    (hy : maxOf (samples.map (·.2)) = some my) (hx0 : mx ≠ 0) (hy0 : my ≠ 0) {p q : Rat × Rat} (hp : p ∈ samples)
    (hq : q ∈ samples) (hpq : p.1 ≠ q.1) :
    finish samples = some (accepts (samples.map fun p => (p.1 / mx, p.2 / my))) := by
  unfold finish
  rw [hx, hy]
  simp only
  rw [if_neg (by simp [hx0, hy0]), if_neg]
  refine den_pos (p := (p.1 / mx, p.2 / my)) (q := (q.1 / mx, q.2 / my)) (List.mem_map.2 ⟨p, hp, rfl⟩)
    (List.mem_map.2 ⟨q, hq, rfl⟩) ?_
  intro h
  have h : p.1 / mx = q.1 / mx := h
  apply hpq
  grind

/-! ### Linear measurements -/

theorem diag_regress {pts : List (Rat × Rat)} (hd : ∀ p ∈ pts, p.1 = p.2) (h0 : slopeDen pts ≠ 0) :
    slope pts = 1 ∧ intercept pts = 0 := by
  have e : pts.map (·.2) = pts.map (·.1) := List.map_congr_left fun p hp => (hd p hp).symm
  have h1 : slopeNum pts = slopeDen pts := by
    unfold slopeNum slopeDen
    rw [e]
    refine sum_congr fun p hp => ?_
    rw [hd p hp]
  have h2 : slope pts = 1 := by
    unfold slope
    rw [h1]
    grind
  refine ⟨h2, ?_⟩
  unfold intercept
  rw [h2, e]
  grind

/-- **C109, partial.**  Measurements that lie on a line are accepted, unless the line is too low at 0. -/
theorem line_is_accepted {samples : List (Rat × Rat)} {c m mx my : Rat} (hl : ∀ p ∈ samples, p.2 = c + m * p.1)
    (hx : maxOf (samples.map (·.1)) = some mx) (hy : maxOf (samples.map (·.2)) = some my) (hx0 : mx ≠ 0) (hy0 : my ≠ 0)
    {p q : Rat × Rat} (hp : p ∈ samples) (hq : q ∈ samples) (hpq : p.1 ≠ q.1) :
    finish samples = some (decide (c / my > -(1 / 10))) := by
  rw [finish_eq hx hy hx0 hy0 hp hq hpq]
  have hne : samples ≠ [] := List.ne_nil_of_mem hp
  let diag : List (Rat × Rat) := samples.map fun p => (p.1 / mx, p.1 / mx)
  have hdne : diag ≠ [] := by simpa [diag] using hne
  have he : (samples.map fun p => (p.1 / mx, p.2 / my)) = affine (c / my) (m * mx / my) diag := by
    simp only [affine, diag, List.map_map]
    refine List.map_congr_left fun p hp => ?_
    simp only [Function.comp, Prod.mk.injEq, true_and]
    rw [hl p hp]
    grind
  have hden : slopeDen diag ≠ 0 := by
    refine den_pos (p := (p.1 / mx, p.1 / mx)) (q := (q.1 / mx, q.1 / mx)) (List.mem_map.2 ⟨p, hp, rfl⟩)
      (List.mem_map.2 ⟨q, hq, rfl⟩) ?_
    intro h
    have h : p.1 / mx = q.1 / mx := h
    apply hpq
    grind
  obtain ⟨hs, hi⟩ := diag_regress (pts := diag) (by
    intro r hr
    obtain ⟨r', _, rfl⟩ := List.mem_map.1 hr
    rfl) hden
  rw [he]
  have hmiss : ∀ r ∈ affine (c / my) (m * mx / my) diag, absOf (miss (affine (c / my) (m * mx / my) diag) r) ≤ 0 := by
    intro r hr
    obtain ⟨r', hr', rfl⟩ := List.mem_map.1 hr
    rw [affine_miss hdne]
    obtain ⟨r'', _, rfl⟩ := List.mem_map.1 hr'
    have : miss diag (r''.1 / mx, r''.1 / mx) = 0 := by
      unfold miss
      rw [hs, hi]
      grind
    rw [this, Rat.mul_zero]
    unfold absOf
    rw [if_neg (by grind)]
    exact Rat.le_refl
  have := small_misses (pts := affine (c / my) (m * mx / my) diag) (by simpa [affine] using hdne) Rat.le_refl (by grind) hmiss
  have hint : intercept (affine (c / my) (m * mx / my) diag) = c / my := by
    rw [affine_intercept hdne, hi]
    grind
  unfold accepts
  rw [hint]
  simp only [this, true_and]

/-! ### Other measurements -/

/-- **C109 is violated**: whatever was measured, the same with a sufficiently large constant added is accepted. -/
theorem everything_is_accepted {samples : List (Rat × Rat)} {mx : Rat} (hx : maxOf (samples.map (·.1)) = some mx) (hx0 : mx ≠ 0)
    {p q : Rat × Rat} (hp : p ∈ samples) (hq : q ∈ samples) (hpq : p.1 ≠ q.1) :
    ∃ least, ∀ c, least ≤ c → finish (samples.map fun p => (p.1, p.2 + c)) = some true := by
  have hne : samples ≠ [] := List.ne_nil_of_mem hp
  obtain ⟨my, hy⟩ : ∃ my, maxOf (samples.map (·.2)) = some my := by
    cases e : maxOf (samples.map (·.2)) with
    | some my => exact ⟨my, rfl⟩
    | none =>
      cases samples with
      | nil => exact absurd rfl hne
      | cons y l =>
        rw [List.map_cons, maxOf] at e
        split at e <;> cases e
  let pts : List (Rat × Rat) := samples.map fun p => (p.1 / mx, p.2)
  have hpne : pts ≠ [] := by simpa [pts] using hne
  refine ⟨absOf my + 20 * maxError pts + absOf (intercept pts) + 1, fun c hc => ?_⟩
  have hme := maxError_nonneg pts
  have ha1 : 0 ≤ absOf my ∧ 0 ≤ absOf my + my := by unfold absOf; split <;> grind
  have ha2 : 0 ≤ absOf (intercept pts) ∧ 0 ≤ absOf (intercept pts) + intercept pts := by unfold absOf; split <;> grind
  have hpos : 20 * maxError pts < my + c := by grind
  have hpos0 : 0 < my + c := by grind
  obtain ⟨m1, m2⟩ := maxOf_mem hy
  have hy' : maxOf ((samples.map fun p => (p.1, p.2 + c)).map (·.2)) = some (my + c) := by
    refine maxOf_eq ?_ ?_
    · obtain ⟨r, hr, e⟩ := List.mem_map.1 m1
      exact List.mem_map.2 ⟨(r.1, r.2 + c), List.mem_map.2 ⟨r, hr, rfl⟩, by simp only [e]⟩
    · intro x hx
      obtain ⟨r, hr, rfl⟩ := List.mem_map.1 hx
      obtain ⟨r', hr', rfl⟩ := List.mem_map.1 hr
      have := m2 r'.2 (List.mem_map.2 ⟨r', hr', rfl⟩)
      show r'.2 + c ≤ my + c
      grind
  have hx' : maxOf ((samples.map fun p => (p.1, p.2 + c)).map (·.1)) = some mx := by
    rw [← hx]
    simp [List.map_map, Function.comp_def]
  rw [finish_eq hx' hy' hx0 (by grind) (p := (p.1, p.2 + c)) (q := (q.1, q.2 + c)) (List.mem_map.2 ⟨p, hp, rfl⟩)
    (List.mem_map.2 ⟨q, hq, rfl⟩) hpq]
  have he : ((samples.map fun p => (p.1, p.2 + c)).map fun p => (p.1 / mx, p.2 / (my + c)))
      = affine (c / (my + c)) (1 / (my + c)) pts := by
    simp only [affine, pts, List.map_map]
    refine List.map_congr_left fun p _ => ?_
    simp only [Function.comp, Prod.mk.injEq, true_and]
    grind
  rw [he]
  have hs : 0 ≤ 1 / (my + c) := by
    rw [Rat.div_def, Rat.one_mul]
    exact Rat.le_of_lt (Rat.inv_pos.2 hpos0)
  have hmiss : ∀ r ∈ affine (c / (my + c)) (1 / (my + c)) pts,
      absOf (miss (affine (c / (my + c)) (1 / (my + c)) pts) r) ≤ maxError pts / (my + c) := by
    intro r hr
    obtain ⟨r', hr', rfl⟩ := List.mem_map.1 hr
    rw [affine_miss hpne, absOf_mul _ _ hs]
    have := Rat.mul_le_mul_of_nonneg_left (le_maxError hr') hs
    grind
  have hsm := small_misses (pts := affine (c / (my + c)) (1 / (my + c)) pts) (by simpa [affine] using hpne)
    (e := maxError pts / (my + c))
    (by rw [Rat.div_def]; exact Rat.mul_nonneg hme (Rat.le_of_lt (Rat.inv_pos.2 hpos0)))
    (by rw [Rat.div_lt_iff hpos0]; grind) hmiss
  have hint : intercept (affine (c / (my + c)) (1 / (my + c)) pts) > -(1 / 10) := by
    rw [affine_intercept hpne]
    have e : c / (my + c) + 1 / (my + c) * intercept pts = (c + intercept pts) * (1 / (my + c)) := by grind
    rw [e]
    have := Rat.mul_nonneg (a := c + intercept pts) (by grind) hs
    grind
  unfold accepts
  simp only [hsm, hint, and_self, decide_true]

theorem sum_append (a b : List Rat) : sum (a ++ b) = sum a + sum b := by
  induction a with
  | nil => simp only [List.nil_append, sum]; grind
  | cons x a ih => simp only [List.cons_append, sum]; grind

theorem sum_range_succ (n : Nat) (f : Nat → Rat) : sum ((List.range (n + 1)).map f) = sum ((List.range n).map f) + f n := by
  rw [List.range_succ, List.map_append, sum_append]
  simp only [List.map_cons, List.map_nil, sum]
  grind

theorem sum_first (n : Nat) (u : Rat) : sum ((List.range n).map fun (i : Nat) => (i + 1 : Rat) * u) = u * (n * (n + 1) / 2) := by
  induction n with
  | zero => simp only [List.range_zero, List.map_nil, sum]; grind
  | succ n ih => rw [sum_range_succ, ih]; grind

theorem sum_second (n : Nat) (u : Rat) :
    sum ((List.range n).map fun (i : Nat) => (i + 1 : Rat) * (i + 1) * u) = u * (n * (n + 1) * (2 * n + 1) / 6) := by
  induction n with
  | zero => simp only [List.range_zero, List.map_nil, sum]; grind
  | succ n ih => rw [sum_range_succ, ih]; grind

theorem sum_den (n : Nat) (a u : Rat) :
    sum ((List.range n).map fun (i : Nat) => ((i + 1 : Rat) * u - a) * ((i + 1) * u - a)) =
      u * u * (n * (n + 1) * (2 * n + 1) / 6) - a * u * (n * (n + 1)) + n * a * a := by
  induction n with
  | zero => simp only [List.range_zero, List.map_nil, sum]; grind
  | succ n ih => rw [sum_range_succ, ih]; grind

theorem sum_num (n : Nat) (a b u : Rat) :
    sum ((List.range n).map fun (i : Nat) => ((i + 1 : Rat) * u - a) * ((i + 1) * (i + 1) * (u * u) - b)) =
      u * u * u * (n * (n + 1) / 2 * (n * (n + 1) / 2)) - a * (u * u) * (n * (n + 1) * (2 * n + 1) / 6)
        - b * u * (n * (n + 1) / 2) + n * a * b := by
  induction n with
  | zero => simp only [List.range_zero, List.map_nil, sum]; grind
  | succ n ih => rw [sum_range_succ, ih]; grind

/-- Measurements at 1, 2, …, `n` that grow with the square. -/
def parabola (k : Rat) (n : Nat) : List (Rat × Rat) := (List.range n).map fun (i : Nat) => ((i + 1 : Rat), k * ((i + 1) * (i + 1)))

theorem parabola_intercept (n : Nat) (hn : 2 ≤ n) :
    intercept ((List.range n).map fun (i : Nat) => ((i + 1 : Rat) * (1 / n), (i + 1 : Rat) * (i + 1) * (1 / n * (1 / n))))
      = -((n + 1) * (n + 2) / (6 * (n * n))) := by
  have hN : (2 : Rat) ≤ n := by exact_mod_cast hn
  generalize hu : (1 / n : Rat) = u
  have hun : u * n = 1 := by grind
  have h1 : mean (((List.range n).map fun (i : Nat) => ((i + 1 : Rat) * u, (i + 1 : Rat) * (i + 1) * (u * u))).map (·.1))
      = u * (n + 1) / 2 := by
    unfold mean
    simp only [List.map_map, Function.comp_def, List.length_map, List.length_range]
    rw [sum_first]
    grind
  have h2 : mean (((List.range n).map fun (i : Nat) => ((i + 1 : Rat) * u, (i + 1 : Rat) * (i + 1) * (u * u))).map (·.2))
      = u * u * ((n + 1) * (2 * n + 1) / 6) := by
    unfold mean
    simp only [List.map_map, Function.comp_def, List.length_map, List.length_range]
    rw [sum_second]
    grind
  have h3 : slopeDen ((List.range n).map fun (i : Nat) => ((i + 1 : Rat) * u, (i + 1 : Rat) * (i + 1) * (u * u)))
      = u * u * n * (n + 1) * (n - 1) / 12 := by
    unfold slopeDen
    rw [h1]
    simp only [List.map_map, Function.comp_def]
    rw [sum_den]
    grind
  have h4 : slopeNum ((List.range n).map fun (i : Nat) => ((i + 1 : Rat) * u, (i + 1 : Rat) * (i + 1) * (u * u)))
      = u * (n + 1) * (u * u * n * (n + 1) * (n - 1) / 12) := by
    unfold slopeNum
    rw [h1, h2]
    simp only [List.map_map, Function.comp_def]
    rw [sum_num]
    grind
  have hd : u * u * n * (n + 1) * (n - 1) / 12 ≠ (0 : Rat) := by
    have hu0 : u ≠ 0 := by grind
    have : (n : Rat) + 1 ≠ 0 := by grind
    have : (n : Rat) - 1 ≠ 0 := by grind
    grind
  unfold intercept slope
  rw [h1, h2, h3, h4]
  generalize u * u * n * (n + 1) * (n - 1) / 12 = d at hd
  have : u * (n + 1) * d / d = u * (n + 1) := by grind
  rw [this]
  grind

/-- **C109, partial.**  Measurements that grow with the square, at 1, 2, …, `n`, are never accepted. -/
theorem parabola_is_rejected {k : Rat} (hk : 0 < k) {n : Nat} (hn : 2 ≤ n) : finish (parabola k n) = some false := by
  have hN : (2 : Rat) ≤ n := by exact_mod_cast hn
  obtain ⟨m, rfl⟩ : ∃ m, n = m + 1 := ⟨n - 1, by omega⟩
  have hle : ∀ i ∈ List.range (m + 1), (i + 1 : Rat) ≤ (m + 1 : Nat) := by
    intro i hi
    have : i + 1 ≤ m + 1 := by
      have := List.mem_range.1 hi
      omega
    exact_mod_cast this
  have hx : maxOf ((parabola k (m + 1)).map (·.1)) = some ((m + 1 : Nat) : Rat) := by
    refine maxOf_eq ?_ ?_
    · refine List.mem_map.2 ⟨_, List.mem_map.2 ⟨m, List.mem_range.2 (by omega), rfl⟩, ?_⟩
      simp
    · intro x hx
      obtain ⟨r, hr, rfl⟩ := List.mem_map.1 hx
      obtain ⟨i, hi, rfl⟩ := List.mem_map.1 hr
      exact hle i hi
  have hy : maxOf ((parabola k (m + 1)).map (·.2)) = some (k * (((m + 1 : Nat) : Rat) * ((m + 1 : Nat) : Rat))) := by
    refine maxOf_eq ?_ ?_
    · refine List.mem_map.2 ⟨_, List.mem_map.2 ⟨m, List.mem_range.2 (by omega), rfl⟩, ?_⟩
      simp
    · intro x hx
      obtain ⟨r, hr, rfl⟩ := List.mem_map.1 hx
      obtain ⟨i, hi, rfl⟩ := List.mem_map.1 hr
      have h1 := hle i hi
      have h0 : (0 : Rat) ≤ i := by exact_mod_cast Nat.zero_le i
      refine Rat.mul_le_mul_of_nonneg_left ?_ (Rat.le_of_lt hk)
      have h2 := Rat.mul_le_mul_of_nonneg_left h1 (c := (i + 1 : Rat)) (by grind)
      have h3 := Rat.mul_le_mul_of_nonneg_right h1 (c := ((m + 1 : Nat) : Rat)) (by grind)
      exact Rat.le_trans h2 h3
  have hsq : (((m + 1 : Nat) : Rat) * ((m + 1 : Nat) : Rat)) ≠ 0 := by
    intro h
    rcases Rat.mul_eq_zero.1 h with h | h <;> grind
  rw [finish_eq hx hy (by grind) (by intro h; rcases Rat.mul_eq_zero.1 h with h | h <;> grind)
    (p := ((0 : Nat) + 1, k * (((0 : Nat) + 1) * ((0 : Nat) + 1)))) (q := ((1 : Nat) + 1, k * (((1 : Nat) + 1) * ((1 : Nat) + 1))))
    (List.mem_map.2 ⟨0, List.mem_range.2 (by omega), rfl⟩) (List.mem_map.2 ⟨1, List.mem_range.2 (by omega), rfl⟩) (by simp; grind)]
  have he : ((parabola k (m + 1)).map fun p => (p.1 / ((m + 1 : Nat) : Rat), p.2 / (k * (((m + 1 : Nat) : Rat) * ((m + 1 : Nat) : Rat)))))
      = (List.range (m + 1)).map fun (i : Nat) => ((i + 1 : Rat) * (1 / (m + 1 : Nat)),
          (i + 1 : Rat) * (i + 1) * (1 / (m + 1 : Nat) * (1 / (m + 1 : Nat)))) := by
    simp only [parabola, List.map_map]
    refine List.map_congr_left fun i _ => ?_
    simp only [Function.comp, Prod.mk.injEq]
    generalize ((m + 1 : Nat) : Rat) = N at hN hsq
    generalize (i + 1 : Rat) = x
    constructor
    · grind
    · have : N ≠ 0 := by grind
      have : k ≠ 0 := by grind
      grind
  rw [he]
  have hi := parabola_intercept (m + 1) hn
  have hbad : ¬ intercept ((List.range (m + 1)).map fun (i : Nat) => ((i + 1 : Rat) * (1 / (m + 1 : Nat)),
      (i + 1 : Rat) * (i + 1) * (1 / (m + 1 : Nat) * (1 / (m + 1 : Nat))))) > -(1 / 10) := by
    rw [hi]
    generalize ((m + 1 : Nat) : Rat) = N at hN hsq
    have hNN : 0 < N * N := (Rat.mul_pos_iff_of_pos_left (by grind)).2 (by grind)
    have : 1 / 6 ≤ (N + 1) * (N + 2) / (6 * (N * N)) := by
      have e : (N + 1) * (N + 2) / (6 * (N * N)) = 1 / 6 + (3 * N + 2) / (6 * (N * N)) := by grind
      rw [e]
      have : 0 ≤ (3 * N + 2) / (6 * (N * N)) := by
        rw [Rat.div_def]
        exact Rat.mul_nonneg (by grind) (Rat.le_of_lt (Rat.inv_pos.2 (by grind)))
      grind
    grind
  unfold accepts
  simp only [hbad, and_false, decide_false]

/-! ### The rounds -/

theorem finish_some {samples : List (Rat × Rat)} (h : samples ≠ []) : ∃ b, finish samples = some b := by
  have key : ∀ l : List Rat, l ≠ [] → ∃ m, maxOf l = some m := by
    intro l hl
    cases l with
    | nil => exact absurd rfl hl
    | cons x l => rw [maxOf]; split <;> exact ⟨_, rfl⟩
  obtain ⟨mx, hx⟩ := key (samples.map (·.1)) (by simpa using h)
  obtain ⟨my, hy⟩ := key (samples.map (·.2)) (by simpa using h)
  unfold finish
  rw [hx, hy]
  simp only
  split
  · exact ⟨_, rfl⟩
  · split <;> exact ⟨_, rfl⟩

/-- A test makes up to four rounds, and stops after the first that looks linear; it fails if none does. -/
theorem test_rounds (data : Nat → List (Rat × Rat)) (hne : ∀ i, data i ≠ []) {fuel : Nat} (hf : 5 ≤ fuel) :
    (∃ r, r < 4 ∧ (∀ j, j < r → finish (data j) = some false) ∧ finish (data r) = some true ∧
      test data fuel 0 [] = some (.passed, r + 1)) ∨
    ((∀ j, j < 4 → finish (data j) = some false) ∧ test data fuel 0 [] = some (.failed, 4)) := by
  obtain ⟨f, rfl⟩ : ∃ f, fuel = f + 5 := ⟨fuel - 5, by omega⟩
  obtain ⟨b0, h0⟩ := finish_some (hne 0)
  obtain ⟨b1, h1⟩ := finish_some (hne 1)
  obtain ⟨b2, h2⟩ := finish_some (hne 2)
  obtain ⟨b3, h3⟩ := finish_some (hne 3)
  cases b0 with
  | true => exact .inl ⟨0, by omega, by omega, h0, by simp [test, nextRound, measure, drop, h0]⟩
  | false =>
    cases b1 with
    | true =>
      refine .inl ⟨1, by omega, fun j hj => ?_, h1, by simp [test, nextRound, measure, drop, h0, h1]⟩
      rw [show j = 0 by omega]; exact h0
    | false =>
      cases b2 with
      | true =>
        refine .inl ⟨2, by omega, fun j hj => ?_, h2, by simp [test, nextRound, measure, drop, h0, h1, h2]⟩
        rcases (by omega : j = 0 ∨ j = 1) with rfl | rfl <;> assumption
      | false =>
        cases b3 with
        | true =>
          refine .inl ⟨3, by omega, fun j hj => ?_, h3, by simp [test, nextRound, measure, drop, h0, h1, h2, h3]⟩
          rcases (by omega : j = 0 ∨ j = 1 ∨ j = 2) with rfl | rfl | rfl <;> assumption
        | false =>
          refine .inr ⟨fun j hj => ?_, by simp [test, nextRound, measure, drop, h0, h1, h2, h3]⟩
          rcases (by omega : j = 0 ∨ j = 1 ∨ j = 2 ∨ j = 3) with rfl | rfl | rfl | rfl <;> assumption

/-- A test that measures nothing in a round panics for another reason. -/
theorem empty_round_panics (data : Nat → List (Rat × Rat)) (h : data 0 = []) {fuel : Nat} (hf : 5 ≤ fuel) :
    test data fuel 0 [] = some (.broken, 1) := by
  obtain ⟨f, rfl⟩ : ∃ f, fuel = f + 5 := ⟨fuel - 5, by omega⟩
  simp [test, nextRound, measure, h, finish, maxOf]

/-- A test that stops in the middle of a round, whatever it has measured in this one, fails: a round counts only
once it is finished. -/
theorem unfinished_round_fails (rounds rs rs' : List Round) (data : List (Rat × Rat))
    (h : nextRound rounds = some (true, rs)) (hm : measure rs data = some rs') : drop rs' = .failed := by
  have hnew : ∃ front, rs = front ++ [⟨[], false⟩] ∧ front.any (·.linear) = false := by
    unfold nextRound at h
    split at h
    · simp only [Option.some.injEq, Prod.mk.injEq, true_and] at h
      exact ⟨[], by rw [← h]; rfl, rfl⟩
    · split at h
      · cases h
      · simp only at h
        split at h
        · simp at h
        · next hc =>
          simp only [Option.some.injEq, Prod.mk.injEq, true_and] at h
          refine ⟨_, h.symm, ?_⟩
          rw [Bool.eq_false_iff]
          exact fun hx => hc (.inl hx)
  obtain ⟨front, rfl, hf⟩ := hnew
  simp only [measure, List.reverse_append, List.reverse_cons, List.reverse_nil, List.nil_append, List.cons_append,
    List.reverse_reverse, Option.some.injEq] at hm
  subst hm
  have hall : (front ++ [(⟨data, false⟩ : Round)]).all (fun r => !r.linear) = true := by
    rw [List.all_append, Bool.and_eq_true]
    refine ⟨?_, rfl⟩
    rw [List.all_eq_true]
    intro r hr
    have := List.any_eq_false.1 hf r hr
    simpa using this
  unfold drop
  rw [if_neg (by simp), if_pos hall]

/-! ### Witnesses -/

/-- Witness of `unfinished_round_fails`: the first round, with measurements on a line. -/
example : ∃ rs, nextRound [] = some (true, rs) ∧ measure rs [(1, 1), (2, 2)] = some [⟨[(1, 1), (2, 2)], false⟩] :=
  ⟨_, rfl, rfl⟩

/-- Witness of `line_is_accepted`: measurements on the line `3 + 2 * x`. -/
example : (∀ p ∈ [((1 : Rat), (5 : Rat)), (2, 7), (4, 11)], p.2 = 3 + 2 * p.1) ∧
    maxOf ([((1 : Rat), (5 : Rat)), (2, 7), (4, 11)].map (·.1)) = some 4 ∧
    maxOf ([((1 : Rat), (5 : Rat)), (2, 7), (4, 11)].map (·.2)) = some 11 ∧
    finish [((1 : Rat), (5 : Rat)), (2, 7), (4, 11)] = some true := by decide +kernel

/-- **C109 is violated**: measurements that grow with the square are accepted if the constant part is large. -/
theorem square_is_accepted : finish ((parabola 1 6).map fun p => (p.1, p.2 + 1000)) = some true := by decide +kernel

/-- The same for measurements that double every time. -/
theorem doubling_is_accepted :
    finish ((List.range 10).map fun (i : Nat) => ((i : Rat), ((2 ^ i : Nat) : Rat) + 10000)) = some true := by decide +kernel

theorem maxOf_const {α : Type} {l : List α} (h : l ≠ []) (c : Rat) : maxOf (l.map fun _ => c) = some c := by
  induction l with
  | nil => exact absurd rfl h
  | cons x l ih =>
    cases l with
    | nil => rfl
    | cons y l =>
      rw [List.map_cons, maxOf, ih (by simp)]
      simp only []
      split <;> rfl

theorem maxOf_some {l : List Rat} (h : l ≠ []) : ∃ m, maxOf l = some m := by
  cases l with
  | nil => exact absurd rfl h
  | cons x l =>
    rw [maxOf]
    split
    · exact ⟨_, rfl⟩
    · exact ⟨_, rfl⟩

/-- Measurements that do not depend on the input, but lie at 0, are rejected, wherever they are made, as are
measurements at one place only, whatever they are. -/
theorem constants_rejected :
    (∀ xs : List Rat, xs ≠ [] → finish (xs.map fun x => (x, 0)) = some false) ∧
    ∀ (x : Rat) (ys : List Rat), ys ≠ [] → finish (ys.map fun y => (x, y)) = some false := by
  constructor
  · intro xs hx
    obtain ⟨m, hm⟩ := maxOf_some (l := xs) hx
    have h1 : ((xs.map fun x => (x, (0 : Rat))).map (·.1)) = xs := by simp [Function.comp_def]
    have h2 : maxOf ((xs.map fun x => (x, (0 : Rat))).map (·.2)) = some 0 := by
      rw [List.map_map]
      exact maxOf_const hx 0
    unfold finish
    rw [h1, hm, h2]
    simp
  · intro x ys hy
    have h1 : maxOf ((ys.map fun y => (x, y)).map (·.1)) = some x := by
      rw [List.map_map]
      exact maxOf_const hy x
    obtain ⟨m, hm⟩ := maxOf_some (l := (ys.map fun y => (x, y)).map (·.2)) (by simpa using hy)
    unfold finish
    rw [h1, hm]
    simp only []
    split
    · rfl
    · next h0 =>
      have hx : x ≠ 0 := fun h => h0 (.inl h)
      have hden : slopeDen ((ys.map fun y => (x, y)).map fun p => (p.1 / x, p.2 / m)) = 0 := by
        have hl := length_pos hy
        have hmean : mean (((ys.map fun y => (x, y)).map fun p => (p.1 / x, p.2 / m)).map (·.1)) = x / x := by
          rw [List.map_map, List.map_map]
          show mean (ys.map fun _ => x / x) = x / x
          unfold mean
          rw [sum_const, List.length_map]
          grind
        unfold slopeDen
        rw [hmean, List.map_map, List.map_map]
        show sum (ys.map fun _ => (x / x - x / x) * (x / x - x / x)) = 0
        rw [sum_const]
        grind
      rw [if_pos hden]

/-- Witness of `constants_rejected`. -/
example : finish [((1 : Rat), (0 : Rat)), (2, 0), (3, 0)] = some false ∧
    finish [((1 : Rat), (5 : Rat)), (1, 5), (1, 5)] = some false := by decide +kernel

/-- Witness of `everything_is_accepted`: the hypotheses hold of squares. -/
example : maxOf ((parabola 1 6).map (·.1)) = some 6 ∧ ((1 : Rat), (1 : Rat)) ∈ parabola 1 6 ∧ ((2 : Rat), (4 : Rat)) ∈ parabola 1 6 ∧
    finish (parabola 1 6) = some false := by decide +kernel

/-- Witness of `test_rounds`: the third round looks linear. -/
example : test (fun i => if i = 2 then [(1, 1), (2, 2), (3, 3)] else parabola 1 6) 5 0 [] = some (.passed, 3) ∧
    test (fun _ => parabola 1 6) 5 0 [] = some (.failed, 4) := by decide +kernel

end Verif.Measure
