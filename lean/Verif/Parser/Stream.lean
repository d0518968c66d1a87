import Verif.Lexer.Props
import Verif.Lexer.Lookahead

set_option autoImplicit false

/-!
The lexer seen as the list of the tokens that are still to be read.
-/

namespace Verif.Lexer

/-- The kind of the first token, the end of the input if there is none. -/
def headKind (ts : List (Kind × Text)) : Kind :=
  match ts with
  | [] => .EOF
  | x :: _ => x.1

/-- The tokens from the first significant one on. -/
def skip (ts : List (Kind × Text)) : List (Kind × Text) := ts.dropWhile (·.1.isTrivia)

/-- The lexer stands on the first token of `ts`; the tokens of `ts` are all that is left. -/
def At (lx : Lexer) (ts : List (Kind × Text)) : Prop :=
  ∃ done rest, Valid lx done rest ∧ Lexes rest ts

theorem At.new {text : Text} {ts : List (Kind × Text)} (h : Lexes text ts) :
    ∃ lx, Lexer.new text = some lx ∧ At lx ts := by
  obtain ⟨k, l, hf⟩ := h.findToken_total
  have hn : Lexer.new text = some ⟨text, 0, l, ⟨k, l⟩, [⟨k, l⟩]⟩ := by
    unfold Lexer.new; rw [hf]
  exact ⟨_, hn, [], text, (new_valid hn).1, h⟩

theorem At.kind {lx : Lexer} {ts : List (Kind × Text)} (h : At lx ts) :
    lx.token.kind = headKind ts := by
  obtain ⟨done, rest, hv, hl⟩ := h
  cases hl with
  | nil => exact (findToken_nil hv.cur).1
  | @cons u r k ts' _ hu hf hr =>
    have := hv.cur
    rw [hf] at this
    injection this with this
    injection this with h1 _
    exact h1.symm

theorem At.ne_eof {lx : Lexer} {x : Kind × Text} {ts : List (Kind × Text)} (h : At lx (x :: ts)) :
    x.1 ≠ .EOF := by
  obtain ⟨done, rest, hv, hl⟩ := h
  exact isTokenKind_ne_eof (Steps.kinds hl x (List.mem_cons_self ..)).1

theorem At.tail_lexes {lx : Lexer} {x : Kind × Text} {ts : List (Kind × Text)}
    (h : At lx (x :: ts)) :
    ∃ r, sliceFrom lx.text lx.curEnd = some r ∧ Lexes r ts ∧ lx.currentText = some x.2 ∧
      ∃ p, lx.text = p ++ r ∧ lx.curEnd = byteLen p := by
  obtain ⟨done, rest, hv, hl⟩ := h
  cases hl with
  | @cons u r k _ _ hu hf hr =>
    have hc := hv.cur
    rw [hf] at hc
    injection hc with hc
    injection hc with hk hlen
    have h1 := hv.steps.text
    have h2 := hv.start
    have h3 := hv.stop
    have h4 := congrArg byteLen h1
    rw [byteLen_append, byteLen_append] at h4
    rw [byteLen_append] at h2
    have hend : lx.curEnd = byteLen ((done.map Prod.snd).flatten ++ u) := by
      rw [byteLen_append]; omega
    refine ⟨r, ?_, hr, ?_, (done.map Prod.snd).flatten ++ u, by rw [h1, List.append_assoc], hend⟩
    · rw [h1, ← List.append_assoc, hend]
      exact sliceFrom_prefix _ _
    · unfold Lexer.currentText
      rw [h1, show lx.curStart = byteLen (done.map Prod.snd).flatten by omega,
        show lx.curEnd = byteLen (done.map Prod.snd).flatten + byteLen u by omega]
      exact sliceRange_mid _ _ _

/-- `bump` drops the current token and the trivia behind it. -/
theorem At.bump {lx : Lexer} {x : Kind × Text} {ts : List (Kind × Text)} (h : At lx (x :: ts)) :
    ∃ lx', lx.bump = some lx' ∧ At lx' (skip ts) := by
  have hne : lx.token.kind ≠ .EOF := by rw [h.kind]; exact h.ne_eof
  obtain ⟨done, rest, hv, hl⟩ := h
  obtain ⟨lx', hb⟩ := bump_total hv hl hne
  obtain ⟨u, triv, rest', h1, h2, h3, ht, hv', hk, htxt⟩ := bump_valid hv hne hb
  have hs' := hv'.steps
  rw [htxt] at hs'
  obtain ⟨ys, hy, hly⟩ := (hv.steps.cancel hs').lexes_rest hl
  refine ⟨lx', hb, _, rest', hv', ?_⟩
  rw [List.cons_append] at hy
  injection hy with hy1 hy2
  rw [hy2, skip, List.dropWhile_append_of_pos (fun a ha => ht a ha)]
  have : At lx' ys := ⟨_, rest', hv', hly⟩
  have hyk := this.kind
  cases ys with
  | nil => exact hly
  | cons y ys =>
    rw [List.dropWhile_cons, if_neg]
    · exact hly
    · rw [← show lx'.token.kind = y.1 from hyk, hk]; simp

theorem findToken_head {r : Text} {ts : List (Kind × Text)} (h : Lexes r ts) :
    ∃ n, findToken r = some (headKind ts, n) ∧ n = byteLen (ts.head?.map Prod.snd |>.getD []) := by
  cases h with
  | nil => exact ⟨0, rfl, rfl⟩
  | @cons u r k ts' _ hu hf hr => exact ⟨_, hf, rfl⟩

theorem findToken_not_ws {c : Char} {cs : Text} {k : Kind} {n : Nat} (hw : isWs c = false)
    (h : findToken (c :: cs) = some (k, n)) : k ≠ .WHITESPACE := by
  unfold findToken at h
  simp only [hw, Bool.false_eq_true, if_false] at h
  split at h
  · split at h <;> (cases h; decide)
  · split at h
    · rename_i hc
      obtain ⟨m, hm, _⟩ := number_spec (cs := cs) hc
      rw [hm] at h
      cases h
      decide
    · split at h
      · cases hs : (startsWith (c :: cs) "x\"" || startsWith (c :: cs) "b\"") with
        | true =>
          unfold nameOrByteString at h
          rw [hs] at h
          simp only [if_true] at h
          split at h
          · cases h; decide
          · cases h
        | false =>
          rw [name_spec hs] at h
          cases h
          cases hk : Kind.fromKeyword ((c :: cs).takeWhile isNameChar) with
          | none => decide
          | some k =>
            have := (fromKeyword_tokenKind hk).2.1
            rintro h
            rw [show (some k).getD Kind.IDENT = k from rfl] at h
            rw [h] at this
            cases this
      · have := (punct_spec h).2.1
        rintro rfl
        cases this

/-- The first token of a text whose first character is not whitespace. -/
theorem lexes_head_not_ws {c : Char} {cs : Text} {ts : List (Kind × Text)} (hw : isWs c = false)
    (h : Lexes (c :: cs) ts) :
    isUnicodeWs c = false ∧ ts.dropWhile (·.1 == .WHITESPACE) = ts := by
  obtain ⟨n, hn, _⟩ := findToken_head h
  refine ⟨?_, ?_⟩
  · cases hu : isUnicodeWs c with
    | false => rfl
    | true => rw [findToken_unicodeWs hu hw] at hn; cases hn
  · have := findToken_not_ws hw hn
    cases ts with
    | nil => rfl
    | cons x ts =>
      have this : x.1 ≠ .WHITESPACE := this
      rw [List.dropWhile_cons, if_neg (by simpa using this)]

/-- `lookahead` finds the next token that is not whitespace. -/
theorem lookahead_kind {lx : Lexer} {r : Text} {ts : List (Kind × Text)}
    (hs : sliceFrom lx.text lx.curEnd = some r) (hl : Lexes r ts) :
    ∃ t, lx.lookahead = some t ∧ t.kind = headKind (ts.dropWhile (·.1 == .WHITESPACE)) := by
  unfold Lexer.lookahead
  rw [hs]
  simp only
  suffices H : r.dropWhile isUnicodeWs = r.dropWhile isWs ∧
      Lexes (r.dropWhile isWs) (ts.dropWhile (·.1 == .WHITESPACE)) by
    rw [H.1]
    obtain ⟨n, hn, _⟩ := findToken_head H.2
    rw [hn]
    exact ⟨_, rfl, rfl⟩
  cases hr : r with
  | nil =>
    subst hr
    cases ts with
    | nil => exact ⟨rfl, hl⟩
    | cons y ys => have := Steps.text hl; have h2 := Steps.kinds hl y (List.mem_cons_self ..); simp at this; exact absurd this.1 h2.2
  | cons c cs =>
    subst hr
    cases hw : isWs c with
    | false =>
      obtain ⟨h1, h2⟩ := lexes_head_not_ws hw hl
      rw [h2, List.dropWhile_cons, if_neg (by simp [h1]), List.dropWhile_cons, if_neg (by simp [hw])]
      exact ⟨rfl, hl⟩
    | true =>
      have hf : findToken (c :: cs) = some (.WHITESPACE, wsRun (c :: cs)) := by
        unfold findToken; simp only [hw, if_true]
      have hsplit : c :: cs = (c :: cs).takeWhile isWs ++ (c :: cs).dropWhile isWs :=
        (List.takeWhile_append_dropWhile).symm
      have hstep : Steps (c :: cs) [(.WHITESPACE, (c :: cs).takeWhile isWs)] ((c :: cs).dropWhile isWs) := by
        rw [wsRun_eq] at hf
        rw [hsplit] at hf
        have := Steps.cons (u := (c :: cs).takeWhile isWs) (r := (c :: cs).dropWhile isWs)
          (by rw [List.takeWhile_cons, if_pos hw]; simp) (by rw [hf, ← hsplit]) (.nil _)
        rwa [← hsplit] at this
      obtain ⟨ys, hy, hly⟩ := hstep.lexes_rest hl
      have hy' : ts.dropWhile (·.1 == .WHITESPACE) = ys.dropWhile (·.1 == .WHITESPACE) := by
        rw [hy]; rfl
      rw [hy']
      rw [← dropWhile_dropWhile_sub (p := isWs) (fun _ => isUnicodeWs_of_isWs)]
      generalize hd : (c :: cs).dropWhile isWs = d at hly ⊢
      have hhead := List.head?_dropWhile_not isWs (c :: cs)
      rw [hd] at hhead
      cases d with
      | nil =>
        cases ys with
        | nil => exact ⟨rfl, hly⟩
        | cons y ys => have := Steps.text hly; have h2 := Steps.kinds hly y (List.mem_cons_self ..); simp at this; exact absurd this.1 h2.2
      | cons e es =>
        have hdw : isWs e = false := by simpa using hhead
        obtain ⟨h1, h2⟩ := lexes_head_not_ws hdw hly
        rw [h2, List.dropWhile_cons, if_neg (by simp [h1])]
        exact ⟨rfl, hly⟩

theorem At.lookahead {lx : Lexer} {x : Kind × Text} {ts : List (Kind × Text)}
    (h : At lx (x :: ts)) :
    ∃ t, lx.lookahead = some t ∧ t.kind = headKind (ts.dropWhile (·.1 == .WHITESPACE)) := by
  obtain ⟨r, hs, hl, _⟩ := h.tail_lexes
  exact lookahead_kind hs hl

/-- `lookahead_2` finds the second token behind the current one, whatever it is. -/
theorem lookahead2_kind {lx : Lexer} {p r : Text} {ts : List (Kind × Text)}
    (hs : sliceFrom lx.text lx.curEnd = some r) (hl : Lexes r ts) (hp : lx.text = p ++ r)
    (hend : lx.curEnd = byteLen p) :
    ∃ t, lx.lookaheadNth 2 = some t ∧ t.kind = headKind (ts.drop 1) := by
  unfold Lexer.lookaheadNth Lexer.lookahead2
  rw [hs]
  simp only
  cases hl with
  | nil =>
    have h1 := hs
    show ∃ t, Option.map Prod.snd (match sliceFrom lx.text (lx.curEnd + 0) with
      | none => none
      | some rest2 => _) = some t ∧ _
    rw [Nat.add_zero, hs]
    exact ⟨_, rfl, rfl⟩
  | @cons u r k ts' _ hu hf hr =>
    rw [hf]
    simp only
    have : sliceFrom lx.text (lx.curEnd + byteLen u) = some r := by
      rw [hp, hend, ← byteLen_append, ← List.append_assoc]
      exact sliceFrom_prefix _ _
    rw [this]
    obtain ⟨n, hn, _⟩ := findToken_head hr
    simp only [hn]
    exact ⟨_, rfl, rfl⟩

theorem At.lookahead2 {lx : Lexer} {x : Kind × Text} {ts : List (Kind × Text)}
    (h : At lx (x :: ts)) :
    ∃ t, lx.lookaheadNth 2 = some t ∧ t.kind = headKind (ts.drop 1) := by
  obtain ⟨r, hs, hl, _, p, hp, hend⟩ := h.tail_lexes
  exact lookahead2_kind hs hl hp hend

/-- The text of the first token, nothing at the end of the input. -/
def headText (ts : List (Kind × Text)) : Text :=
  match ts with
  | [] => []
  | x :: _ => x.2

/-- The lexer stands on the first token of `ts`, or at the end of the input; unlike `At` this also
holds if it was advanced at the end of the input. -/
structure Stands (lx : Lexer) (ts : List (Kind × Text)) : Prop where
  kind : lx.token.kind = headKind ts
  stop : lx.curEnd = lx.curStart + byteLen (headText ts)
  here : ∃ p r, lx.text = p ++ r ∧ lx.curStart = byteLen p ∧ Lexes r ts

theorem Stands.new {text : Text} {ts : List (Kind × Text)} (h : Lexes text ts) :
    ∃ lx, Lexer.new text = some lx ∧ Stands lx ts := by
  obtain ⟨n, hf, hn⟩ := findToken_head h
  have hnew : Lexer.new text = some ⟨text, 0, n, ⟨headKind ts, n⟩, [⟨headKind ts, n⟩]⟩ := by
    unfold Lexer.new; rw [hf]
  refine ⟨_, hnew, rfl, ?_, [], text, rfl, rfl, h⟩
  rw [hn, Nat.zero_add]
  cases ts <;> rfl

theorem Stands.tail {lx : Lexer} {ts : List (Kind × Text)} (h : Stands lx ts) :
    ∃ p r, lx.text = p ++ r ∧ lx.curEnd = byteLen p ∧ sliceFrom lx.text lx.curEnd = some r ∧
      Lexes r ts.tail ∧ lx.currentText = some (headText ts) := by
  obtain ⟨p, r, h1, h2, h3⟩ := h.here
  have h4 := h.stop
  cases h3 with
  | nil =>
    have h5 : lx.curEnd = byteLen p := by rw [h4, h2]; rfl
    refine ⟨p, [], h1, h5, ?_, .nil _, ?_⟩
    · rw [h1, h5]; exact sliceFrom_prefix _ _
    · unfold Lexer.currentText
      rw [h1, h2, h5]
      exact sliceRange_mid p [] []
  | @cons u r k ts _ hu hf hr =>
    have h5 : lx.curEnd = byteLen (p ++ u) := by rw [h4, h2, byteLen_append]; rfl
    refine ⟨p ++ u, r, by rw [h1, List.append_assoc], h5, ?_, hr, ?_⟩
    · rw [h1, ← List.append_assoc, h5]; exact sliceFrom_prefix _ _
    · unfold Lexer.currentText
      rw [h1, h2, h5, byteLen_append]
      exact sliceRange_mid p u r

theorem Stands.lookahead {lx : Lexer} {ts : List (Kind × Text)} (h : Stands lx ts) :
    ∃ t, lx.lookahead = some t ∧ t.kind = headKind (ts.tail.dropWhile (·.1 == .WHITESPACE)) := by
  obtain ⟨p, r, _, _, hs, hl, _⟩ := h.tail
  exact lookahead_kind hs hl

theorem Stands.lookahead2 {lx : Lexer} {ts : List (Kind × Text)} (h : Stands lx ts) :
    ∃ t, lx.lookaheadNth 2 = some t ∧ t.kind = headKind (ts.tail.drop 1) := by
  obtain ⟨p, r, hp, he, hs, hl, _⟩ := h.tail
  exact lookahead2_kind hs hl hp he

/-- `bump` drops the current token and the trivia behind it. -/
theorem Stands.bump {lx : Lexer} {ts : List (Kind × Text)} (h : Stands lx ts) :
    ∃ lx', lx.bump = some lx' ∧ Stands lx' (skip ts.tail) := by
  generalize hn : ts.tail = tl
  induction tl generalizing lx ts with
  | nil =>
    obtain ⟨p, r, hp, he, hs, hl, _⟩ := h.tail
    rw [hn] at hl
    cases hl
    rw [bump_eq, hs]
    refine ⟨_, rfl, rfl, rfl, p, [], hp, ?_, .nil _⟩
    show byteLen lx.text - byteLen [] = _
    rw [hp, List.append_nil]
    rfl
  | cons x tl ih =>
    obtain ⟨p, r, hp, he, hs, hl, _⟩ := h.tail
    rw [hn] at hl
    obtain ⟨n, hf, hlen⟩ := findToken_head hl
    have hstart : byteLen lx.text - byteLen r = byteLen p := by
      rw [hp, byteLen_append]; omega
    have hst : Stands ({ lx with curStart := byteLen lx.text - byteLen r }.advanceWithToken x.1 n) (x :: tl) := by
      refine ⟨rfl, ?_, p, r, hp, hstart, hl⟩
      show byteLen lx.text - byteLen r + n = byteLen lx.text - byteLen r + _
      rw [hlen]
      rfl
    have e : lx.bump = if x.1.isTrivia
        then ({ lx with curStart := byteLen lx.text - byteLen r }.advanceWithToken x.1 n).bump
        else some ({ lx with curStart := byteLen lx.text - byteLen r }.advanceWithToken x.1 n) := by
      rw [bump_eq, hs]
      simp only [hf]
      rfl
    rw [e]
    cases ht : x.1.isTrivia with
    | true =>
      rw [if_pos rfl]
      have := ih hst rfl
      rw [show skip (x :: tl) = skip tl by unfold skip; rw [List.dropWhile_cons, if_pos ht]]
      exact this
    | false =>
      rw [if_neg (by simp)]
      refine ⟨_, rfl, ?_⟩
      rw [show skip (x :: tl) = x :: tl by unfold skip; rw [List.dropWhile_cons, if_neg (by simp [ht])]]
      exact hst

end Verif.Lexer
