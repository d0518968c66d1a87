import Verif.Parser.SoundSpec

set_option autoImplicit false

/-!
What the functions of the grammar for parameters, patterns and structures have read when they
return without an error.
-/

namespace Verif.Parser

open Language Lexer

section
variable {c : (f : Fn) → TState → Out TState f.Res} {α : Type} {w w' : List Tok} {u n : Nat}
  {i i' : Forest} {o : List (Forest × Forest)} {Q : α → TState → Prop}

/-! ### Parameters -/

theorem sd_param (H : Meets c) (m : Marker) : Sd c (param m) ⟨w, u, n, .nil, (.nil, i) :: o⟩
    (Ret o fun _ w' i' => Took [.nt .param] w i w' i') := by
  unfold param
  refine sd_seq H.shrinks (sd_name H) ?_
  intro _ w1 u1 n1 i1 h1
  refine sd_at _ (fun u' h => ?_) (fun u' h => ?_)
  · sred
    refine sd_seq H.shrinks (sd_ascription H) ?_
    intro _ w2 u2 n2 i2 h2
    sred
    exact sd_pure _ _ ⟨rfl, .node (.strict .param) (h1.trans h2)⟩
  · sred
    exact sd_error _ _ _

theorem sd_paramLoop (H : Meets c) : Sd c paramLoopBody ⟨w, u, n, i, o⟩
    (Ret o fun _ w' i' => TookList .params .R_PAREN w i w' i') := by
  unfold paramLoopBody
  refine sd_neither _ _ _ (fun u' _ => ?_) (fun u' _ hne => ?_)
  · sred
    exact sd_pure _ _ ⟨rfl, .done (.strict .params_nil) _ _⟩
  · sred
    cases TYPE_FIRST.contains (kind0 w) with
    | false => sred; exact sd_error _ _ _
    | true =>
      sred
      refine sd_seq H.shrinks (sd_param H _) ?_
      intro _ w1 u1 n1 i1 h1
      refine sd_at _ (fun u' h => ?_) (fun u' h => ?_)
      · sred
        refine sd_mono (H.call .paramLoop) ?_
        rintro _ s' ⟨ho, _, h2⟩
        obtain ⟨e1, e2⟩ := h2 h
        exact ⟨ho, .flat (.strict .params_one) (h1.trans (.of_same e1 e2)), fun h => absurd h hne⟩
      · sred
        refine sd_expect _ nofun ?_
        rintro t l1 l2 w2 u2 n2 rfl
        sred
        refine sd_mono (H.call .paramLoop) ?_
        rintro _ s' ⟨ho, h2, _⟩
        exact ⟨ho, .flat (.strict .params_cons) (h1.trans (Took.trans (.tok t l1 l2 _ rfl) h2)),
          fun h => absurd h hne⟩

theorem sd_paramList (H : Meets c) : Sd c paramList ⟨w, u, n, i, o⟩
    (Ret o fun _ w' i' => Took [.nt .paramList] w i w' i') := by
  unfold paramList
  sred
  refine sd_bump _ nofun ?_
  rintro t l1 l2 w1 u1 n1 rfl
  refine sd_seq H.shrinks (H.call .paramLoop) ?_
  intro _ w2 u2 n2 i2 h2
  refine sd_expect _ nofun ?_
  rintro t' l1' l2' w3 u3 n3 rfl
  sred
  exact sd_pure _ _ ⟨rfl, .node (.strict .param_list)
    ((Took.tok t l1 l2 _ rfl).trans (h2.1.trans (.tok t' l1' l2' _ rfl)))⟩

/-! ### Structures -/

theorem sd_recordField (H : Meets c) : Sd c recordField ⟨w, u, n, i, o⟩
    (Ret o fun _ w' i' => Took [.nt .field] w i w' i') := by
  unfold recordField
  sred
  refine sd_at _ (fun u' h => ?_) (fun u' h => ?_)
  · sred
    refine sd_seq H.shrinks (sd_name H) ?_
    intro _ w1 u1 n1 i1 h1
    refine sd_expect _ nofun ?_
    rintro t l1 l2 w2 u2 n2 rfl
    refine sd_seq H.shrinks (H.call .type_) ?_
    intro _ w3 u3 n3 i3 h3
    sred
    exact sd_pure _ _ ⟨rfl, .node (.strict .field) (h1.trans ((Took.tok t l1 l2 _ rfl).trans h3))⟩
  · sred
    rw [sd_abandon]
    exact sd_errRecover' _ _ _ H.shrinks

theorem sd_recordFieldLoop (H : Meets c) : Sd c recordFieldLoopBody ⟨w, u, n, i, o⟩
    (Ret o fun _ w' i' => TookList .fields .R_BRACE w i w' i') := by
  unfold recordFieldLoopBody
  refine sd_neither _ _ _ (fun u' _ => ?_) (fun u' hne _ => ?_)
  · sred
    exact sd_pure _ _ ⟨rfl, .done (.strict .fields_nil) _ _⟩
  · sred
    refine sd_seq H.shrinks (sd_recordField H) ?_
    intro _ w1 u1 n1 i1 h1
    refine sd_at _ (fun u' h => ?_) (fun u' h => ?_)
    · sred
      refine sd_mono (H.call .recordFieldLoop) ?_
      rintro _ s' ⟨ho, _, h2⟩
      obtain ⟨e1, e2⟩ := h2 h
      exact ⟨ho, .flat (.strict .fields_one) (h1.trans (.of_same e1 e2)), fun h => absurd h hne⟩
    · sred
      refine sd_expect _ nofun ?_
      rintro t l1 l2 w2 u2 n2 rfl
      sred
      refine sd_mono (H.call .recordFieldLoop) ?_
      rintro _ s' ⟨ho, h2, _⟩
      exact ⟨ho, .flat (.strict .fields_cons) (h1.trans (Took.trans (.tok t l1 l2 _ rfl) h2)),
        fun h => absurd h hne⟩

theorem sd_recordFieldList (H : Meets c) : Sd c recordFieldList ⟨w, u, n, i, o⟩
    (Ret o fun _ w' i' => Took [.nt .fieldList] w i w' i') := by
  unfold recordFieldList
  rw [sd_at_eq]
  refine sd_assert _ _ _ fun _ => ?_
  sred
  refine sd_bump _ nofun ?_
  rintro t l1 l2 w1 u1 n1 rfl
  refine sd_seq H.shrinks (H.call .recordFieldLoop) ?_
  intro _ w2 u2 n2 i2 h2
  refine sd_expect _ nofun ?_
  rintro t' l1' l2' w3 u3 n3 rfl
  sred
  exact sd_pure _ _ ⟨rfl, .node (.strict .field_list)
    ((Took.tok t l1 l2 _ rfl).trans (h2.1.trans (.tok t' l1' l2' _ rfl)))⟩

theorem sd_structDef (H : Meets c) (m : Marker) : Sd c (structDef m) ⟨w, u, n, .nil, (.nil, i) :: o⟩
    (Ret o fun _ w' i' => Took [.nt .structDef] w i w' i') := by
  unfold structDef
  refine sd_bump _ nofun ?_
  rintro t l1 l2 w1 u1 n1 rfl
  refine sd_seq H.shrinks (sd_nameR H _) ?_
  intro _ w2 u2 n2 i2 h2
  have h1 := Took.trans (.tok t l1 l2 .nil rfl) h2
  refine sd_seq H.shrinks (sd_optGenericParamList H) ?_
  intro _ w3 u3 n3 i3 h3
  sred
  split
  · refine sd_seq H.shrinks (sd_recordFieldList H) ?_
    intro _ w4 u4 n4 i4 h4
    sred
    rcases h3 with h3 | ⟨rfl, rfl⟩
    · exact sd_pure _ _ ⟨rfl, .node (.strict .struct_generic_fields) (h1.trans (h3.trans h4))⟩
    · exact sd_pure _ _ ⟨rfl, .node (.strict .struct_fields) (h1.trans h4)⟩
  · split
    · refine sd_bump _ nofun ?_
      rintro t' l1' l2' w4 u4 n4 rfl
      sred
      rcases h3 with h3 | ⟨rfl, rfl⟩
      · exact sd_pure _ _ ⟨rfl, .node (.strict .struct_generic_native)
          (h1.trans (h3.trans (.tok t' l1' l2' _ rfl)))⟩
      · exact sd_pure _ _ ⟨rfl, .node (.strict .struct_native) (h1.trans (.tok t' l1' l2' _ rfl))⟩
    · exact sd_error _ _ _

/-! ### Patterns -/

theorem sd_identPat (H : Meets c) : Sd c identPat ⟨w, u, n, i, o⟩
    (Ret o fun _ w' i' => Took [.nt .identPat] w i w' i') := by
  unfold identPat
  sred
  refine sd_eat _ nofun ?_ ?_
  · rintro t l1 l2 w1 u1 n1 rfl
    refine sd_seq H.shrinks (sd_name H) ?_
    intro _ w2 u2 n2 i2 h2
    sred
    exact sd_pure _ _ ⟨rfl, .node (.strict .ident_pat_mut) (Took.trans (.tok t l1 l2 _ rfl) h2)⟩
  · intro u1 _
    refine sd_seq H.shrinks (sd_name H) ?_
    intro _ w2 u2 n2 i2 h2
    sred
    exact sd_pure _ _ ⟨rfl, .node (.strict .ident_pat) h2⟩

theorem rest_not_first : PATTERN_FIRST.contains .DOTDOT = false := by decide +kernel

theorem sd_tuplePatLoop (H : Meets c) (a b d : Bool) :
    Sd c (tuplePatLoopBody a b d) ⟨w, u, n, i, o⟩ (Ret o fun r w' i' =>
      (r = (a, b, d) ∧ w' = w ∧ i'.shape = i.shape) ∨
      (kind0 w ≠ .R_PAREN ∧ r = (a, true, d) ∧ Took [.nt .pattern] w i w' i') ∨
      (kind0 w ≠ .R_PAREN ∧ r = (true, true, d) ∧ Took [.nt .pattern, .tok .COMMA, .nt .pats] w i w' i')) := by
  unfold tuplePatLoopBody
  refine sd_neither _ _ _ (fun u' _ => ?_) (fun u' _ hne => ?_)
  · sred
    exact sd_pure _ _ ⟨rfl, .inl ⟨rfl, rfl, rfl⟩⟩
  · sred
    cases hf : PATTERN_FIRST.contains (kind0 w) with
    | false => sred; exact sd_error _ _ _
    | true =>
      sred
      refine sd_at _ (fun u' h => ?_) (fun u' h => ?_)
      · rw [h, rest_not_first] at hf; cases hf
      · sred
        rw [Bool.or_false]
        refine sd_seq H.shrinks (H.call .pattern) ?_
        intro _ w1 u1 n1 i1 h1
        refine sd_at _ (fun u' h => ?_) (fun u' h => ?_)
        · sred
          refine sd_mono (H.call (.tuplePatLoop a true d)) ?_
          rintro r s' ⟨ho, ⟨rfl, e1, e2⟩ | ⟨h2, _⟩ | ⟨h2, _⟩⟩
          · exact ⟨ho, .inr (.inl ⟨hne, rfl, h1.trans (.of_same e1 e2)⟩)⟩
          · exact absurd h h2
          · exact absurd h h2
        · sred
          refine sd_expect _ nofun ?_
          rintro t l1 l2 w2 u2 n2 rfl
          have h2 := h1.trans (.tok t l1 l2 _ rfl)
          refine sd_mono (H.call (.tuplePatLoop true true d)) ?_
          rintro r s' ⟨ho, ⟨rfl, e1, e2⟩ | ⟨_, rfl, h3⟩ | ⟨_, rfl, h3⟩⟩
          · exact ⟨ho, .inr (.inr ⟨hne, rfl, h2.trans (.flat (.strict .pats_nil) (.of_same e1 e2))⟩)⟩
          · exact ⟨ho, .inr (.inr ⟨hne, rfl, h2.trans (.flat (.strict .pats_one) h3)⟩)⟩
          · exact ⟨ho, .inr (.inr ⟨hne, rfl, h2.trans (.flat (.strict .pats_cons) h3)⟩)⟩

theorem sd_tuplePat (H : Meets c) : Sd c tuplePat ⟨w, u, n, i, o⟩
    (Ret o fun _ w' i' => Took [.nt .pattern] w i w' i') := by
  unfold tuplePat
  rw [sd_at_eq]
  refine sd_assert _ _ _ fun _ => ?_
  sred
  refine sd_bump _ nofun ?_
  rintro t l1 l2 w1 u1 n1 rfl
  have h1 := Took.tok (w := w1) t l1 l2 .nil (k := .L_PAREN) rfl
  refine sd_seq H.shrinks (o := (.nil, i) :: o) (P := fun r w' i' =>
      (r = (false, false, false) ∧ w' = w1 ∧ i'.shape = (Forest.nil.tok .L_PAREN).shape) ∨
      (kind0 w1 ≠ .R_PAREN ∧ r = (false, true, false) ∧ Took [.nt .pattern] w1 (.tok .nil .L_PAREN) w' i') ∨
      (kind0 w1 ≠ .R_PAREN ∧ r = (true, true, false) ∧
        Took [.nt .pattern, .tok .COMMA, .nt .pats] w1 (.tok .nil .L_PAREN) w' i'))
    (H.call (.tuplePatLoop false false false)) ?_
  rintro r w2 u2 n2 i2 (⟨rfl, e1, e2⟩ | ⟨_, rfl, h2⟩ | ⟨_, rfl, h2⟩)
  · refine sd_expect _ nofun ?_
    rintro t' l1' l2' w3 u3 n3 rfl
    sred
    exact sd_pure _ _ ⟨rfl, .node (.strict .pattern_unit)
      (h1.trans ((Took.of_same e1 e2).trans (.tok t' l1' l2' _ rfl)))⟩
  · refine sd_expect _ nofun ?_
    rintro t' l1' l2' w3 u3 n3 rfl
    sred
    exact sd_pure _ _ ⟨rfl, .node (.strict .pattern_paren) (h1.trans (h2.trans (.tok t' l1' l2' _ rfl)))⟩
  · refine sd_expect _ nofun ?_
    rintro t' l1' l2' w3 u3 n3 rfl
    sred
    exact sd_pure _ _ ⟨rfl, .node (.strict .pattern_tuple) (h1.trans (h2.trans (.tok t' l1' l2' _ rfl)))⟩

theorem sd_errorBlock (msg : String) (f : Unit → Prog α) :
    Sd c (errorBlock msg >>= f) ⟨w, u, n, i, o⟩ Q := by
  unfold errorBlock
  simp only [bind_assoc_prog]
  rw [sd_at_eq]
  refine sd_assert _ _ _ fun _ => ?_
  sred
  exact sd_error _ _ _

theorem sd_recordPatField (H : Meets c) : Sd c recordPatField ⟨w, u, n, i, o⟩
    (Ret o fun _ w' i' => Took [.nt .patField] w i w' i') := by
  have key : ∀ (m : Marker) u n, Sd c (do
      identPat
      let _ ← m.complete .RECORD_PAT_FIELD
      pure ()) ⟨w, u, n, .nil, (.nil, i) :: o⟩ (Ret o fun _ w' i' => Took [.nt .patField] w i w' i') := by
    intro m u n
    refine sd_seq H.shrinks (sd_identPat H) ?_
    intro _ w2 u2 n2 i2 h2
    sred
    exact sd_pure _ _ ⟨rfl, .node (.strict .pat_field_short) h2⟩
  unfold recordPatField
  sred
  split
  · sred
    split
    · refine sd_seq H.shrinks (sd_nameRef H) ?_
      intro _ w1 u1 n1 i1 h1
      refine sd_bump _ nofun ?_
      rintro t l1 l2 w2 u2 n2 rfl
      refine sd_seq H.shrinks (H.call .pattern) ?_
      intro _ w3 u3 n3 i3 h3
      sred
      exact sd_pure _ _ ⟨rfl, .node (.strict .pat_field)
        (h1.nameRef.trans ((Took.tok t l1 l2 _ rfl).trans h3))⟩
    · exact key _ _ _
  · exact key _ _ _

theorem sd_recordPatEntry (H : Meets c) : Sd c recordPatEntry ⟨w, u, n, i, o⟩
    (Ret o fun _ w' i' => Took [.nt .patField] w i w' i') := by
  unfold recordPatEntry
  sred
  split
  · rename_i h
    rw [sd_at_eq]
    have : (kind0 w == .DOTDOT) = false := by rw [show kind0 w = .DOT by simpa using h]; rfl
    rw [this]
    sred
    exact sd_recordPatField H
  · split
    · rw [← bind_pure_prog (errorBlock _)]
      exact sd_errorBlock _ _
    · exact sd_recordPatField H

theorem sd_recordPatLoop (H : Meets c) : Sd c recordPatLoopBody ⟨w, u, n, i, o⟩
    (Ret o fun _ w' i' => TookList .patFields .R_BRACE w i w' i') := by
  unfold recordPatLoopBody
  refine sd_neither _ _ _ (fun u' _ => ?_) (fun u' _ hne => ?_)
  · sred
    exact sd_pure _ _ ⟨rfl, .done (.strict .pat_fields_nil) _ _⟩
  · sred
    refine sd_seq H.shrinks (sd_recordPatEntry H) ?_
    intro _ w1 u1 n1 i1 h1
    refine sd_at _ (fun u' h => ?_) (fun u' h => ?_)
    · sred
      refine sd_mono (H.call .recordPatLoop) ?_
      rintro _ s' ⟨ho, _, h2⟩
      obtain ⟨e1, e2⟩ := h2 h
      exact ⟨ho, .flat (.strict .pat_fields_one) (h1.trans (.of_same e1 e2)), fun h => absurd h hne⟩
    · sred
      refine sd_expect _ nofun ?_
      rintro t l1 l2 w2 u2 n2 rfl
      sred
      refine sd_mono (H.call .recordPatLoop) ?_
      rintro _ s' ⟨ho, h2, _⟩
      exact ⟨ho, .flat (.strict .pat_fields_cons) (h1.trans (Took.trans (.tok t l1 l2 _ rfl) h2)),
        fun h => absurd h hne⟩

theorem sd_recordPatFieldList (H : Meets c) : Sd c recordPatFieldList ⟨w, u, n, i, o⟩
    (Ret o fun _ w' i' => Took [.nt .patFieldList] w i w' i') := by
  unfold recordPatFieldList
  rw [sd_at_eq]
  refine sd_assert _ _ _ fun _ => ?_
  sred
  refine sd_bump _ nofun ?_
  rintro t l1 l2 w1 u1 n1 rfl
  refine sd_seq H.shrinks (H.call .recordPatLoop) ?_
  intro _ w2 u2 n2 i2 h2
  refine sd_expect _ nofun ?_
  rintro t' l1' l2' w3 u3 n3 rfl
  sred
  exact sd_pure _ _ ⟨rfl, .node (.strict .pat_field_list)
    ((Took.tok t l1 l2 _ rfl).trans (h2.1.trans (.tok t' l1' l2' _ rfl)))⟩

theorem sd_pathPat (H : Meets c) (h0 : kind0 w = .IDENT) (h1 : kind1 w = .L_BRACE) :
    Sd c pathPat ⟨w, u, n, i, o⟩ (Ret o fun _ w' i' => Took [.nt .pattern] w i w' i') := by
  refine sd_coherent fun hw => ?_
  obtain ⟨t, l1, l2, w1, rfl⟩ := cons_of_kind0 h0 nofun
  have hb : kind0 w1 = .L_BRACE := by
    have e : l1 = .L_BRACE := h1
    rw [← hw.2.1 (by show l1 ≠ _; rw [e]; nofun)]
    exact e
  unfold pathPat
  sred
  refine sd_assert _ _ _ fun _ => ?_
  sred
  refine sd_seq H.shrinks (sd_path H rfl) ?_
  intro _ w2 u2 n2 i2 h2
  obtain ⟨rfl, h3⟩ := h2.2 _ _ rfl (by rw [hb]; nofun)
  rw [sd_current, hb, if_pos (show (Kind.L_BRACE == Kind.L_BRACE) = true from rfl)]
  refine sd_seq H.shrinks (sd_recordPatFieldList H) ?_
  intro _ w4 u4 n4 i4 h4
  sred
  exact sd_pure _ _ ⟨rfl, .node (.strict .pattern_record) (h3.trans h4)⟩

theorem sd_patternRest (H : Meets c) : Sd c (patternRest (kind0 w)) ⟨w, u, n, i, o⟩
    (Ret o fun _ w' i' => Took [.nt .pattern] w i w' i') := by
  refine sd_coherent fun hw => ?_
  unfold patternRest
  split
  · rename_i h
    have h : kind0 w = .WILDCARD := by simpa using h
    obtain ⟨t, l1, l2, w1, rfl⟩ := cons_of_kind0 h nofun
    exact absurd rfl hw.1.2.1
  · split
    · exact sd_tuplePat H
    · exact sd_errRecover' _ _ _ H.shrinks

theorem sd_pattern (H : Meets c) : Sd c patternBody ⟨w, u, n, i, o⟩
    (Ret o fun _ w' i' => Took [.nt .pattern] w i w' i') := by
  have ident : ∀ u, Sd c identPat ⟨w, u, n, i, o⟩ (Ret o fun _ w' i' => Took [.nt .pattern] w i w' i') :=
    fun u => sd_mono (sd_identPat H) fun _ _ h => ⟨h.1, .flat (.strict .pattern_ident) h.2⟩
  unfold patternBody
  sred
  split
  · exact ident _
  · split
    · rename_i h0
      sred
      split
      · rename_i h1
        exact sd_pathPat H (by simpa using h0) (by simpa using h1)
      · exact ident _
    · split
      · rename_i h
        have : (kind0 w == .DOTDOT) = false := by rw [show kind0 w = .DOT by simpa using h]; rfl
        rw [sd_at_eq, this]
        sred
        exact sd_patternRest H
      · exact sd_patternRest H

end

end Verif.Parser
