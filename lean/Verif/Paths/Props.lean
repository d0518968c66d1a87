import Verif.Paths.Model
import Verif.Paths.Spec

/-! Properties C19 and C20: path normalisation and virtual paths. -/

namespace Verif.Paths

open Spec

/-! ## Lemmas -/

theorem beforeLastSlash_none {t : Text} : beforeLastSlash t = none ↔ '/' ∉ t := by
  induction t with
  | nil => simp [beforeLastSlash]
  | cons c cs ih =>
    simp only [beforeLastSlash]
    cases h : beforeLastSlash cs with
    | some p =>
      simp only [h] at ih
      have : '/' ∈ cs := by
        rcases Classical.em ('/' ∈ cs) with h' | h'
        · exact h'
        · exact absurd (ih.2 h') (by simp)
      simp [this]
    | none =>
      rw [h] at ih
      have := ih.1 rfl
      by_cases hc : c = '/'
      · simp [hc]
      · simp [hc, this, Ne.symm hc]

theorem beforeLastSlash_append (a n : Text) (h : '/' ∉ n) : beforeLastSlash (a ++ '/' :: n) = some a := by
  induction a with
  | nil => simp [beforeLastSlash, beforeLastSlash_none.2 h]
  | cons c cs ih => simp [beforeLastSlash, ih]

theorem render_append (a b : List Text) : render (a ++ b) = render a ++ render b := by
  induction a with
  | nil => rfl
  | cons n ns ih => simp [render, ih]

theorem render_concat (a : List Text) (n : Text) : render (a ++ [n]) = render a ++ '/' :: n := by
  rw [render_append]; simp [render]

/-- The string form used by the code for a directory: `/` for the root. -/
def path (ns : List Text) : Text := if ns = [] then ['/'] else render ns

theorem render_getLast {ns : List Text} (hn : ∀ n ∈ ns, Name n) (h : ns ≠ []) :
    (render ns).getLast? ≠ some '/' := by
  rcases List.eq_nil_or_concat ns with rfl | ⟨init, n, rfl⟩
  · exact absurd rfl h
  rw [List.concat_eq_append] at *
  rw [render_concat]
  have hname := hn n (by simp)
  obtain ⟨x, hx⟩ : ∃ x, n.getLast? = some x := by
    rw [List.getLast?_eq_some_getLast hname.1]; exact ⟨_, rfl⟩
  have : (render init ++ '/' :: n).getLast? = some x := by
    rw [List.getLast?_append]
    cases n with
    | nil => simp at hx
    | cons c cs => rw [List.getLast?_cons_cons, hx]; rfl
  rw [this]
  intro he
  simp at he
  subst he
  exact hname.2.1 (List.mem_of_getLast? hx)

theorem push_path (ns : List Text) (n : Text) (hn : ∀ n ∈ ns, Name n) :
    push (path ns) n = path (ns ++ [n]) := by
  unfold path
  have hne : ns ++ [n] ≠ [] := by simp
  rw [if_neg hne]
  by_cases h : ns = []
  · subst h; simp [push, render]
  · rw [if_neg h, push, if_neg, render_concat]
    rintro (h' | h')
    · cases ns with
      | nil => exact h rfl
      | cons a as => simp [render] at h'
    · exact render_getLast hn h h'

theorem pop_path_concat (ns : List Text) (n : Text) (hn : ∀ x ∈ ns ++ [n], Name x) :
    pop (path (ns ++ [n])) = path ns := by
  have hname := hn n (by simp)
  unfold path
  rw [if_neg (by simp)]
  unfold pop
  rw [render_concat, if_neg, beforeLastSlash_append _ _ hname.2.1]
  · cases ns with
    | nil => rfl
    | cons a as => simp [render]
  · have h0 := hname.1
    rintro (h | h)
    · cases ns with
      | nil => simp [render] at h; exact h0 h
      | cons a as => simp [render] at h
    · simp at h

theorem splitSlash_ne (t : Text) : splitSlash t ≠ [] := by
  cases t with
  | nil => simp [splitSlash]
  | cons c cs =>
    simp only [splitSlash]
    split
    · simp
    · split <;> simp

theorem splitSlash_no_slash (t : Text) : ∀ s ∈ splitSlash t, '/' ∉ s := by
  induction t with
  | nil => simp [splitSlash]
  | cons c cs ih =>
    simp only [splitSlash]
    split
    · intro s hs
      rcases List.mem_cons.1 hs with rfl | hs
      · simp
      · exact ih s hs
    · rename_i hc
      cases hsp : splitSlash cs with
      | nil => exact absurd hsp (splitSlash_ne cs)
      | cons s ss =>
        rw [hsp] at ih
        intro x hx
        simp only [List.mem_cons] at hx
        rcases hx with rfl | hx
        · simp [Ne.symm hc]; exact ih s (by simp)
        · exact ih x (by simp [hx])

/-- Following segments from a directory, in the code's representation. -/
theorem fold_walk (segs : List Text) (hs : ∀ s ∈ segs, '/' ∉ s) (here : List Text) (hn : ∀ n ∈ here, Name n) :
    ∃ there, Walk here segs there ∧ (∀ n ∈ there, Name n) ∧
      (segs.filterMap segComponent).foldl normalizeStep (path here) = path there := by
  induction segs generalizing here with
  | nil => exact ⟨here, .stop here, hn, rfl⟩
  | cons s segs ih =>
    have hs' : ∀ s ∈ segs, '/' ∉ s := fun x hx => hs x (by simp [hx])
    by_cases h0 : s = []
    · subst h0
      obtain ⟨t, h1, h2, h3⟩ := ih hs' here hn
      exact ⟨t, .empty h1, h2, by simpa [segComponent] using h3⟩
    · by_cases h1 : s = ['.']
      · subst h1
        obtain ⟨t, h1, h2, h3⟩ := ih hs' here hn
        exact ⟨t, .dot h1, h2, by simpa [segComponent] using h3⟩
      · by_cases h2 : s = ['.', '.']
        · subst h2
          rcases List.eq_nil_or_concat here with rfl | ⟨init, last, rfl⟩
          · obtain ⟨t, h1, h2, h3⟩ := ih hs' [] hn
            refine ⟨t, .upRoot h1, h2, ?_⟩
            simpa [segComponent, normalizeStep, path, pop] using h3
          · rw [List.concat_eq_append] at *
            obtain ⟨t, h1, h2, h3⟩ := ih hs' init (fun n h => hn n (by simp [h]))
            refine ⟨t, .up h1, h2, ?_⟩
            simp only [List.filterMap_cons, segComponent]
            simpa [normalizeStep, pop_path_concat init last hn] using h3
        · have hname : Name s := ⟨h0, hs s (by simp), h1, h2⟩
          obtain ⟨t, g1, g2, g3⟩ := ih hs' (here ++ [s]) (by
            intro n hh
            rcases List.mem_append.1 hh with hh | hh
            · exact hn n hh
            · simp at hh; subst hh; exact hname)
          refine ⟨t, .down hname g1, g2, ?_⟩
          simp only [List.filterMap_cons, segComponent, h0, h1, h2, false_or, if_false]
          simpa [normalizeStep, push_path here s hn] using g3

theorem normalizePath_abs (t : Text) (h : t.head? = some '/') :
    normalizePath t = ((splitSlash t).filterMap segComponent).foldl normalizeStep (path []) := by
  unfold normalizePath components
  rw [if_pos h]
  rfl

theorem splitSlash_render (n : Text) (ns : List Text) (hn : '/' ∉ n) (h : ∀ x ∈ ns, '/' ∉ x) :
    splitSlash (n ++ render ns) = n :: ns := by
  induction ns generalizing n with
  | nil =>
    simp only [render, List.append_nil]
    induction n with
    | nil => rfl
    | cons c cs ih =>
      simp only [List.mem_cons, not_or] at hn
      simp [splitSlash, Ne.symm hn.1, ih hn.2]
  | cons m ms ih =>
    induction n with
    | nil =>
      simp only [render, List.nil_append, List.cons_append, splitSlash, if_true]
      rw [ih m (h m (by simp)) (fun x hx => h x (by simp [hx]))]
    | cons c cs ih2 =>
      simp only [List.mem_cons, not_or] at hn
      simp only [List.cons_append, splitSlash, Ne.symm hn.1, if_false]
      rw [ih2 hn.2]

/-! ## C19 -/

/-- C19: a normalised absolute path names the directory reached by following the segments of
the original one from the root; it consists of proper names only (no `.`, `..`, empty
segment), or is `/`. -/
theorem normalize_is_walk (t : Text) (h : t.head? = some '/') :
    ∃ there, Walk [] (splitSlash t) there ∧ (∀ n ∈ there, Name n) ∧
      normalizePath t = if there = [] then ['/'] else render there := by
  obtain ⟨there, h1, h2, h3⟩ := fold_walk (splitSlash t) (splitSlash_no_slash t) [] (by simp)
  exact ⟨there, h1, h2, by rw [normalizePath_abs t h, h3, path]⟩

/-- The specification determines where a walk ends. -/
theorem walk_unique {here segs a b : List Text} (h1 : Walk here segs a) (h2 : Walk here segs b) : a = b := by
  induction h1 generalizing b with
  | stop => cases h2; rfl
  | empty _ ih => cases h2 with
    | empty h => exact ih h
    | down hn _ => exact absurd rfl hn.1
  | dot _ ih => cases h2 with
    | dot h => exact ih h
    | down hn _ => exact absurd rfl hn.2.2.1
  | up _ ih =>
    generalize hx : _ ++ [_] = x at h2
    cases h2 with
    | up h =>
      obtain ⟨e1, e2⟩ := List.append_inj' hx rfl
      subst e1
      exact ih h
    | upRoot h => simp at hx
    | down hn _ => exact absurd rfl hn.2.2.2
  | upRoot _ ih =>
    generalize hx : ([] : List Text) = x at h2
    cases h2 with
    | up h => simp at hx
    | upRoot h => exact ih h
    | down hn _ => exact absurd rfl hn.2.2.2
  | down hn _ ih => cases h2 with
    | down _ h => exact ih h
    | empty => exact absurd rfl hn.1
    | dot => exact absurd rfl hn.2.2.1
    | up => exact absurd rfl hn.2.2.2
    | upRoot => exact absurd rfl hn.2.2.2

theorem walk_names (here ns : List Text) (h : ∀ n ∈ ns, Name n) : Walk here ns (here ++ ns) := by
  induction ns generalizing here with
  | nil => simpa using Walk.stop here
  | cons n ns ih =>
    refine .down (h n (by simp)) ?_
    have := ih (here ++ [n]) (fun x hx => h x (by simp [hx]))
    simpa using this

/-- C19: a path of proper names is not changed. -/
theorem normalize_canonical (ns : List Text) (hne : ns ≠ []) (h : ∀ n ∈ ns, Name n) :
    normalizePath (render ns) = render ns := by
  cases ns with
  | nil => exact absurd rfl hne
  | cons n ns =>
    have hh : (render (n :: ns)).head? = some '/' := rfl
    obtain ⟨there, h1, _, h3⟩ := normalize_is_walk (render (n :: ns)) hh
    have hsp : splitSlash (render (n :: ns)) = [] :: n :: ns := by
      have := splitSlash_render [] (n :: ns) (by simp) (fun x hx => (h x hx).2.1)
      simpa using this
    rw [hsp] at h1
    have h4 : Walk [] ([] :: n :: ns) (n :: ns) := by
      refine .empty ?_
      have := walk_names [] (n :: ns) h
      simpa using this
    rw [walk_unique h1 h4] at h3
    rw [h3, if_neg (by simp)]

/-- C19: normalising twice changes nothing more. -/
theorem normalize_idempotent (t : Text) (h : t.head? = some '/') :
    normalizePath (normalizePath t) = normalizePath t := by
  obtain ⟨there, _, h2, h3⟩ := normalize_is_walk t h
  rw [h3]
  by_cases he : there = []
  · rw [if_pos he]; decide
  · rw [if_neg he]; exact normalize_canonical there he h2

example : normalizePath "/a/../../b/.//c//".toList = "/b/c".toList := by decide

/-! ## C20 -/

theorem virtualJoin_ups (k : Nat) (base rest : Text) (hb : ∀ r, rest ≠ '.' :: '.' :: '/' :: r) :
    virtualJoin base (ups k ++ rest) =
      (Nat.rec (motive := fun _ => Text → Option Text) (fun b => some (b ++ '/' :: trimDotSlash rest))
        (fun _ ih b => (virtualPop b).bind ih) k) base := by
  induction k generalizing base with
  | zero =>
    simp only [ups, List.nil_append]
    unfold virtualJoin
    split
    · rename_i r; exact absurd rfl (hb r)
    · rfl
  | succ k ih =>
    simp only [ups, List.cons_append]
    rw [virtualJoin]
    cases virtualPop base with
    | none => rfl
    | some b => simp only [Option.bind_some]; exact ih b

/-- C20: joining `k` times `../` and a remainder (which does not start with `../`) to the
virtual path with names `ns` fails exactly when `k` exceeds the number of names, and otherwise
drops the last `k` names and appends the remainder, from which leading `./` are removed. -/
theorem join_goes_up (ns : List Text) (hn : ∀ n ∈ ns, '/' ∉ n) (k : Nat) (rest : Text)
    (hb : ∀ r, rest ≠ '.' :: '.' :: '/' :: r) :
    (virtualJoin (render ns) (ups k ++ rest) = none ↔ ns.length < k) ∧
    (∀ d body, rest = dots d ++ body → (∀ r, body ≠ '.' :: '/' :: r) → k ≤ ns.length →
      virtualJoin (render ns) (ups k ++ rest) = some (render (ns.take (ns.length - k)) ++ '/' :: body)) := by
  have htrim : ∀ d body, (∀ r, body ≠ '.' :: '/' :: r) → trimDotSlash (dots d ++ body) = body := by
    intro d body hbody
    induction d with
    | zero =>
      simp only [dots, List.nil_append]
      unfold trimDotSlash
      split
      · rename_i r; exact absurd rfl (hbody r)
      · rfl
    | succ d ih => simp [dots, trimDotSlash, ih]
  rw [virtualJoin_ups k _ rest hb]
  induction k generalizing ns with
  | zero =>
    refine ⟨by simp, ?_⟩
    intro d body h1 h2 _
    simp only [h1, htrim d body h2, Nat.sub_zero, List.take_length]
    rfl
  | succ k ih =>
    rcases List.eq_nil_or_concat ns with rfl | ⟨init, last, rfl⟩
    · simp [render, virtualPop, beforeLastSlash]
    · rw [List.concat_eq_append] at *
      have hp : virtualPop (render (init ++ [last])) = some (render init) := by
        rw [render_concat, virtualPop, beforeLastSlash_append _ _ (hn last (by simp))]
      simp only [hp, Option.bind_some]
      obtain ⟨h1, h2⟩ := ih init (fun n h => hn n (by simp [h]))
      refine ⟨by rw [h1]; simp, ?_⟩
      intro d body e1 e2 hk
      simp at hk
      rw [h2 d body e1 e2 hk]
      congr 2
      simp only [List.length_append, List.length_cons, List.length_nil]
      rw [show init.length + (0 + 1) - (k + 1) = init.length - k by omega,
        List.take_append_of_le_length (by omega)]

/-- Every relative path has the form used in `join_goes_up`. -/
theorem relative_path_form (path : Text) : ∃ k d body, path = ups k ++ (dots d ++ body) ∧
    (∀ r, dots d ++ body ≠ '.' :: '.' :: '/' :: r) ∧ (∀ r, body ≠ '.' :: '/' :: r) := by
  have hd : ∀ n (t : Text), t.length ≤ n → ∃ d body, t = dots d ++ body ∧ ∀ r, body ≠ '.' :: '/' :: r := by
    intro n
    induction n with
    | zero => intro t ht; exact ⟨0, t, rfl, by intro r h; rw [h] at ht; simp at ht⟩
    | succ n ih =>
      intro t ht
      by_cases h : ∃ r, t = '.' :: '/' :: r
      · obtain ⟨r, rfl⟩ := h
        obtain ⟨d, body, h1, h2⟩ := ih r (by simp at ht; omega)
        exact ⟨d + 1, body, by simp [dots, ← h1], h2⟩
      · exact ⟨0, t, rfl, fun r hr => h ⟨r, hr⟩⟩
  have hu : ∀ n (t : Text), t.length ≤ n → ∃ k rest, t = ups k ++ rest ∧ ∀ r, rest ≠ '.' :: '.' :: '/' :: r := by
    intro n
    induction n with
    | zero => intro t ht; exact ⟨0, t, rfl, by intro r h; rw [h] at ht; simp at ht⟩
    | succ n ih =>
      intro t ht
      by_cases h : ∃ r, t = '.' :: '.' :: '/' :: r
      · obtain ⟨r, rfl⟩ := h
        obtain ⟨k, rest, h1, h2⟩ := ih r (by simp at ht; omega)
        exact ⟨k + 1, rest, by simp [ups, ← h1], h2⟩
      · exact ⟨0, t, rfl, fun r hr => h ⟨r, hr⟩⟩
  obtain ⟨k, rest, h1, h2⟩ := hu _ path (Nat.le_refl _)
  obtain ⟨d, body, h3, h4⟩ := hd _ rest (Nat.le_refl _)
  exact ⟨k, d, body, by rw [h1, h3], by rw [← h3]; exact h2, h4⟩

example : virtualJoin "/foo/bar".toList "../baz.move".toList = some "/foo/baz.move".toList := by decide
example : virtualJoin "/foo".toList "../../x".toList = none := by decide
example : (∀ r, ("./x".toList : Text) ≠ '.' :: '.' :: '/' :: r) ∧ render ["foo".toList] = "/foo".toList := by
  simp [render]

/-- A trailing separator counts as one more level: from `/` one can still go up once. -/
theorem join_root_climbs : virtualJoin "/".toList "../x".toList = some "/x".toList := by decide

end Verif.Paths
