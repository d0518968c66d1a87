import Verif.LineEndings.Model
import Verif.LineEndings.Spec
import Verif.Text.Lemmas

namespace Verif.LineEndings

/-- Byte-level removal of the carriage return of every pair. -/
def stripB : List UInt8 → List UInt8
  | [] => []
  | [c] => [c]
  | a :: b :: r => if a = CR ∧ b = LF then LF :: stripB r else a :: stripB (b :: r)

theorem stripB_cons_of_ne (a : UInt8) (l : List UInt8) (h : ¬ (a = CR ∧ l.head? = some LF)) :
    stripB (a :: l) = a :: stripB l := by
  cases l with
  | nil => simp [stripB]
  | cons b r =>
    simp only [stripB]
    rw [if_neg (by simpa using h)]

theorem stripB_LF (l : List UInt8) : stripB (LF :: l) = LF :: stripB l :=
  stripB_cons_of_ne _ _ (by simp [CR, LF])

theorem findCrlf_none {l : List UInt8} (h : findCrlf l = none) : stripB l = l := by
  fun_induction findCrlf l with
  | case1 => rfl
  | case2 => rfl
  | case3 a b r hab => simp at h
  | case4 a b r hab ih =>
    simp only [stripB, if_neg hab]
    rw [ih (by simpa using h)]

theorem findCrlf_some {l : List UInt8} {i : Nat} (h : findCrlf l = some i) :
    ∃ pre rest, l = pre ++ CR :: LF :: rest ∧ pre.length = i ∧
      stripB l = pre ++ LF :: stripB rest := by
  fun_induction findCrlf l generalizing i with
  | case1 => simp at h
  | case2 => simp at h
  | case3 a b r hab =>
    simp at h
    obtain ⟨rfl, rfl⟩ := hab
    exact ⟨[], r, by simp, by simp [h], by simp [stripB]⟩
  | case4 a b r hab ih =>
    simp at h
    obtain ⟨j, hj, rfl⟩ := h
    obtain ⟨pre, rest, h1, h2, h3⟩ := ih hj
    refine ⟨a :: pre, rest, by simp [h1], by simp [h2], ?_⟩
    simp only [stripB, if_neg hab, h3, List.cons_append]

theorem copyWithin_take (tail : List UInt8) (gap idx : Nat) (h1 : gap ≤ idx) (h2 : idx ≤ tail.length) :
    (copyWithin tail gap idx).take (idx - gap) = (tail.take idx).drop gap := by
  unfold copyWithin
  rw [List.take_append_of_le_length (by simp; omega), List.take_of_length_le (by simp; omega)]

theorem copyWithin_drop (tail : List UInt8) (gap idx : Nat) (h1 : gap ≤ idx) (h2 : idx ≤ tail.length) :
    (copyWithin tail gap idx).drop (idx - gap) = tail.drop (idx - gap) := by
  unfold copyWithin
  have hl : ((tail.take idx).drop gap).length = idx - gap := by simp; omega
  rw [List.drop_append, hl, List.drop_eq_nil_of_le (by omega)]
  simp

theorem loop_correct (fuel : Nat) (done tail : List UInt8) (gap : Nat) (hg : gap ≤ tail.length)
    (hf : tail.length - gap < fuel) :
    ∃ buf g, loop fuel done tail gap = some (buf, g) ∧
      buf.take (buf.length - g) = done ++ stripB (tail.drop gap) := by
  induction fuel generalizing done tail gap with
  | zero => omega
  | succ fuel ih =>
    unfold loop
    rw [if_pos hg]
    cases hfind : findCrlf (tail.drop gap) with
    | none =>
      simp only
      rw [copyWithin_take _ _ _ hg (Nat.le_refl _), copyWithin_drop _ _ _ hg (Nat.le_refl _)]
      rw [if_pos (by simp; omega)]
      refine ⟨_, _, rfl, ?_⟩
      rw [findCrlf_none hfind]
      have hX : (tail.take tail.length).drop gap = tail.drop gap := by simp
      have hY : (tail.drop (tail.length - gap)).length = gap := by simp; omega
      rw [hX]
      rw [List.take_append_of_le_length (by simp; omega)]
      apply List.take_of_length_le
      rw [List.length_append (as := done ++ tail.drop gap), hY]
      omega
    | some i =>
      obtain ⟨pre, rest, h1, h2, h3⟩ := findCrlf_some hfind
      have hlen : tail.length - gap = pre.length + 2 + rest.length := by
        have := congrArg List.length h1; simp at this; omega
      have hsplit : tail = tail.take gap ++ (pre ++ CR :: LF :: rest) := by
        rw [← h1, List.take_append_drop]
      simp only
      have hle1 : gap ≤ i + gap := by omega
      have hle2 : i + gap ≤ tail.length := by omega
      rw [copyWithin_take _ _ _ hle1 hle2, copyWithin_drop _ _ _ hle1 hle2]
      rw [if_neg (by simp; omega)]
      have hpre : (tail.take (i + gap)).drop gap = pre := by
        rw [List.drop_take, h1]
        simp [h2]
      have hdrop : (tail.drop (i + gap - gap)).drop (gap + 1) = LF :: rest := by
        rw [List.drop_drop, show i + gap - gap + (gap + 1) = gap + (i + 1) by omega, ← List.drop_drop, h1, ← h2]
        simp [List.drop_append]
      obtain ⟨buf, g, hb1, hb2⟩ := ih (done ++ pre) (tail.drop (i + gap - gap)) (gap + 1)
        (by simp; omega) (by simp; omega)
      rw [hpre]
      refine ⟨buf, g, hb1, ?_⟩
      rw [hb2, hdrop, stripB_LF, h3]
      simp

theorem stripB_no_CR {l : List UInt8} (h : ¬ CR ∈ l) : stripB l = l := by
  fun_induction stripB l with
  | case1 => rfl
  | case2 => rfl
  | case3 a b r hab => simp [hab.1] at h
  | case4 a b r hab ih => rw [ih (by simp at h ⊢; exact h.2)]

theorem normalizeBytes_eq (src : List UInt8) :
    normalizeBytes src = some (stripB src, if CR ∈ src then .dos else .unix) := by
  unfold normalizeBytes
  by_cases h : CR ∈ src
  · rw [if_pos (by simpa using h), if_pos h]
    obtain ⟨buf, g, h1, h2⟩ := loop_correct (src.length + 1) [] src 0 (by omega) (by omega)
    rw [h1]
    simp [h2]
  · rw [if_neg (by simpa using h), if_neg h, stripB_no_CR h]

/-! ### From bytes to characters -/

theorem ofNat_ne (n : Nat) (h : 128 ≤ n) (h2 : n < 256) (b : UInt8) (hb : b.toNat < 128) :
    UInt8.ofNat n ≠ b := by
  intro he
  have := congrArg UInt8.toNat he
  simp at this
  omega

/-- A byte below 128 occurs in the encoding of a character only if the character is that byte. -/
theorem encodeChar_cases (c : Char) :
    (c.val.toNat < 128 ∧ String.utf8EncodeChar c = [UInt8.ofNat c.val.toNat]) ∨
    (128 ≤ c.val.toNat ∧ String.utf8EncodeChar c ≠ [] ∧
      ∀ b ∈ String.utf8EncodeChar c, ∀ d : UInt8, d.toNat < 128 → b ≠ d) := by
  rw [String.utf8EncodeChar.eq_1]
  split
  · left; exact ⟨by omega, rfl⟩
  · right
    refine ⟨by omega, ?_⟩
    split
    · refine ⟨by simp, ?_⟩
      intro b hb d hd
      simp only [List.mem_cons, List.not_mem_nil, or_false] at hb
      rcases hb with rfl | rfl <;> exact ofNat_ne _ (by omega) (by omega) d hd
    · split
      · refine ⟨by simp, ?_⟩
        intro b hb d hd
        simp only [List.mem_cons, List.not_mem_nil, or_false] at hb
        rcases hb with rfl | rfl | rfl <;> exact ofNat_ne _ (by omega) (by omega) d hd
      · refine ⟨by simp, ?_⟩
        intro b hb d hd
        simp only [List.mem_cons, List.not_mem_nil, or_false] at hb
        rcases hb with rfl | rfl | rfl | rfl <;> exact ofNat_ne _ (by omega) (by omega) d hd

theorem ofNat_eq_iff (c : Char) (h : c.val.toNat < 128) (d : Char) (hd : d.val.toNat < 128) :
    UInt8.ofNat c.val.toNat = UInt8.ofNat d.val.toNat ↔ c = d := by
  constructor
  · intro he
    have := congrArg UInt8.toNat he
    simp at this
    have h3 : c.val.toNat = d.val.toNat := by
      have e1 : c.toNat % 256 = c.toNat := Nat.mod_eq_of_lt (by have : c.toNat = c.val.toNat := rfl; omega)
      have e2 : d.toNat % 256 = d.toNat := Nat.mod_eq_of_lt (by have : d.toNat = d.val.toNat := rfl; omega)
      have a1 : c.toNat = c.val.toNat := rfl
      have a2 : d.toNat = d.val.toNat := rfl
      omega
    exact Char.ext (UInt32.toNat_inj.1 h3)
  · rintro rfl; rfl

theorem bytes_eq_nil {t : Text} (h : bytes t = []) : t = [] := by
  cases t with
  | nil => rfl
  | cons c cs =>
    simp only [bytes, List.append_eq_nil_iff] at h
    rcases encodeChar_cases c with ⟨_, he⟩ | ⟨_, hne, _⟩
    · rw [he] at h; simp at h
    · exact absurd h.1 hne

theorem head_bytes_LF (t : Text) : (bytes t).head? = some LF ↔ t.head? = some '\n' := by
  cases t with
  | nil => simp [bytes]
  | cons c cs =>
    simp only [bytes, List.head?_cons, Option.some.injEq]
    rcases encodeChar_cases c with ⟨hc, he⟩ | ⟨hc, hne, hall⟩
    · rw [he]
      simp only [List.cons_append, List.head?_cons, Option.some.injEq]
      exact ofNat_eq_iff c hc '\n' (by decide)
    · cases hl : String.utf8EncodeChar c with
      | nil => exact absurd hl hne
      | cons b bs =>
        simp only [List.cons_append, List.head?_cons, Option.some.injEq]
        constructor
        · intro hb
          exact absurd hb (hall b (by rw [hl]; simp) LF (by decide))
        · rintro rfl
          have : (128 : Nat) ≤ 10 := hc
          omega

theorem stripB_append_high (pre l : List UInt8) (h : ∀ b ∈ pre, b ≠ CR) :
    stripB (pre ++ l) = pre ++ stripB l := by
  induction pre with
  | nil => rfl
  | cons b bs ih =>
    simp only [List.cons_append]
    rw [stripB_cons_of_ne _ _ (by rintro ⟨hb, _⟩; exact h b (by simp) hb), ih (fun x hx => h x (by simp [hx]))]

/-- Character-level counterpart of `stripB`. -/
abbrev strip := normalize.strip

theorem strip_cons_of_ne (a : Char) (l : Text) (h : ¬ (a = '\r' ∧ l.head? = some '\n')) :
    strip (a :: l) = a :: strip l := by
  cases l with
  | nil => simp [strip, normalize.strip]
  | cons b r =>
    simp only [strip, normalize.strip]
    rw [if_neg (by simpa using h)]

theorem strip_pair (r : Text) : strip ('\r' :: '\n' :: r) = '\n' :: strip r := by
  simp [strip, normalize.strip]

theorem bytes_strip (n : Nat) (t : Text) (hn : t.length ≤ n) : bytes (strip t) = stripB (bytes t) := by
  induction n generalizing t with
  | zero =>
    cases t with
    | nil => rfl
    | cons c cs => simp at hn
  | succ n ih =>
    cases t with
    | nil => rfl
    | cons c cs =>
      by_cases h : c = '\r' ∧ cs.head? = some '\n'
      · obtain ⟨rfl, h2⟩ := h
        cases cs with
        | nil => simp at h2
        | cons d ds =>
          simp at h2; subst h2
          rw [strip_pair]
          have e1 : String.utf8EncodeChar '\r' = [CR] := by decide
          have e2 : String.utf8EncodeChar '\n' = [LF] := by decide
          simp only [bytes, e1, e2, List.cons_append, List.nil_append]
          simp only [stripB, and_self, if_true]
          rw [ih ds (by simp at hn ⊢; omega)]
      · rw [strip_cons_of_ne c cs h]
        simp only [bytes]
        rw [ih cs (by simp at hn ⊢; omega)]
        rcases encodeChar_cases c with ⟨hc, he⟩ | ⟨hc, hne, hall⟩
        · rw [he]
          simp only [List.cons_append, List.nil_append]
          rw [stripB_cons_of_ne]
          rintro ⟨h1, h2⟩
          exact h ⟨(ofNat_eq_iff c hc '\r' (by decide)).1 h1, (head_bytes_LF cs).1 h2⟩
        · rw [stripB_append_high _ _ (fun b hb => hall b hb CR (by decide))]

theorem mem_bytes_CR (t : Text) : CR ∈ bytes t ↔ '\r' ∈ t := by
  induction t with
  | nil => simp [bytes]
  | cons c cs ih =>
    simp only [bytes, List.mem_append, ih, List.mem_cons]
    rcases encodeChar_cases c with ⟨hc, he⟩ | ⟨hc, hne, hall⟩
    · rw [he]
      simp only [List.mem_singleton]
      have := ofNat_eq_iff '\r' (by decide) c hc
      have e : UInt8.ofNat ('\r').val.toNat = CR := rfl
      rw [e] at this
      rw [this]
    · constructor
      · rintro (h | h)
        · exact absurd rfl (hall CR h CR (by decide))
        · exact Or.inr h
      · rintro (h | h)
        · subst h
          have : (128 : Nat) ≤ 13 := hc
          omega
        · exact Or.inr h

theorem crlfToLf_strip (n : Nat) (t : Text) (hn : t.length ≤ n) : CrlfToLf t (strip t) := by
  induction n generalizing t with
  | zero =>
    cases t with
    | nil => exact .nil
    | cons c cs => simp at hn
  | succ n ih =>
    cases t with
    | nil => exact .nil
    | cons c cs =>
      by_cases h : c = '\r' ∧ cs.head? = some '\n'
      · obtain ⟨rfl, h2⟩ := h
        cases cs with
        | nil => simp at h2
        | cons d ds =>
          simp at h2; subst h2
          rw [strip_pair]
          exact .pair (ih ds (by simp at hn; omega))
      · rw [strip_cons_of_ne c cs h]
        exact .keep h (ih cs (by simp at hn; omega))

theorem crlfToLf_unique {t u v : Text} (h1 : CrlfToLf t u) (h2 : CrlfToLf t v) : u = v := by
  induction h1 generalizing v with
  | nil => cases h2; rfl
  | pair _ ih =>
    cases h2 with
    | pair h => rw [ih h]
    | keep hn h => simp at hn
  | keep hn _ ih =>
    cases h2 with
    | pair h => simp at hn
    | keep _ h => rw [ih h]

end Verif.LineEndings
