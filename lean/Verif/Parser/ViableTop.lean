import Verif.Parser.ViableExpr

set_option autoImplicit false

/-!
What has been read where the functions of the grammar for items and files meet their first error.
-/

namespace Verif.Parser

open Language Lexer

section
variable {c : (f : Fn) → TState → Out TState f.Res} {e : Fn → TState → TState → Prop} {α : Type}
  {w w' : List Tok} {u n : Nat} {i i' : Forest} {o : List (Forest × Forest)} {V V' : List Tok → Prop}
  {F : Prop}

/-! ### Items -/

theorem ve_functionDef (H : Stops c e) (m : Marker) :
    Ve c e (functionDef m) ⟨w, u, n, .nil, (.nil, i) :: o⟩ (Begun [.nt .funDef] w) False := by
  unfold functionDef
  rw [ve_at_eq]
  refine ve_assert _ _ _ fun _ => ?_
  refine ve_bump _ nofun ?_
  rintro t l1 l2 w1 u1 n1 rfl
  have ht := Took.tok (w := w1) t l1 l2 .nil (k := .FUN_KW) rfl
  refine ve_seq H.shrinks (sd_nameR H.toMeets _) (ve_nameR _ (.rule (.strict .fun_unit) ht.stop)) ?_
  intro _ w2 u2 n2 i2 h2
  have h2 := ht.trans h2
  refine ve_at _ (fun u' h => ?_) (fun u' h => ?_)
  · vred
    refine ve_seq H.shrinks (sd_paramList H.toMeets)
      (ve_sub (ve_paramList H) fun w' h => .rule (.strict .fun_unit) (h2.mid h)) ?_
    intro _ w3 u3 n3 i3 h3
    have h3 := h2.trans h3
    unfold optRetType
    vred
    refine ve_at _ (fun u' h => ?_) (fun u' h => ?_)
    · vred
      refine ve_bump _ nofun ?_
      rintro t' l1' l2' w4 u4 n4 rfl
      have ht' := Took.tok (w := w4) t' l1' l2' .nil (k := .COLON) rfl
      refine ve_seq H.shrinks (H.toMeets.call .type_) (H.call .type_ fun w' h =>
        .rule (.strict .fun_ret) (h3.mid (.rule (.strict .ret) (ht'.then h)))) ?_
      intro _ w5 u5 n5 i5 h5
      have h5 : Took [.nt .ret] _ i3 _ _ := .node (.strict .ret) (ht'.trans h5)
      vred
      refine ve_seq H.shrinks (sd_blockExpr H.toMeets)
        (ve_sub (ve_blockExpr H) fun w' h => .rule (.strict .fun_ret) ((h3.trans h5).then h)) ?_
      intro _ w6 u6 n6 i6 h6
      vred
      exact ve_done _ _
    · vred
      refine ve_seq H.shrinks (sd_blockExpr H.toMeets)
        (ve_sub (ve_blockExpr H) fun w' h => .rule (.strict .fun_unit) (h3.then h)) ?_
      intro _ w6 u6 n6 i6 h6
      vred
      exact ve_done _ _
  · vred
    exact ve_error _ _ _ (.rule (.strict .fun_unit) h2.stop)

theorem ve_item (H : Stops c e) : Ve c e item ⟨w, u, n, i, o⟩ (Begun [.nt .items] w) False := by
  have sd : ∀ m u n, Sd c (optItem m) ⟨w, u, n, .nil, (.nil, i) :: o⟩
      (Ret o fun _ w' i' => TookItem w i w' i') := by
    intro m u n
    unfold optItem
    sred
    split
    · exact sd_mono (sd_functionDef H.toMeets m) fun _ _ h => ⟨h.1, .inl h.2⟩
    · split
      · exact sd_mono (sd_structDef H.toMeets m) fun _ _ h => ⟨h.1, .inr h.2⟩
      · exact sd_error _ _ _
  have opt : ∀ m u n, Ve c e (optItem m) ⟨w, u, n, .nil, (.nil, i) :: o⟩ (Begun [.nt .items] w) False := by
    intro m u n
    unfold optItem
    vred
    split
    · exact ve_sub (ve_functionDef H m) fun w' h => .rule (.strict .items_fun) (h.pad (b := [.nt .items]))
    · split
      · exact ve_sub (ve_structDef H m) fun w' h => .rule (.strict .items_struct) (h.pad (b := [.nt .items]))
      · exact ve_error _ _ _ (.here _)
  unfold item
  vred
  refine ve_seq H.shrinks (sd _ _ _) (opt _ _ _) ?_
  intro _ w1 u1 n1 i1 h1
  refine ve_at _ (fun u' h => ?_) (fun u' h => ?_)
  · vred
    refine ve_errRecover' _ _ ?_
    rcases h1 with h1 | h1
    · exact .rule (.strict .items_fun) h1.stop
    · exact .rule (.strict .items_struct) h1.stop
  · vred
    exact ve_done _ _

theorem ve_itemLoop (H : Stops c e) : Ve c e itemLoopBody ⟨w, u, n, i, o⟩ (Begun [.nt .items] w) False := by
  unfold itemLoopBody
  refine ve_neither _ _ _ (fun u' _ => ?_) (fun u' _ hne => ?_)
  · vred
    exact ve_done _ _
  · vred
    refine ve_seq H.shrinks (sd_item H.toMeets) (ve_item H) ?_
    intro _ w1 u1 n1 i1 h1
    refine H.call .itemLoop fun w' h => ?_
    rcases h1 with h1 | h1
    · exact .rule (.strict .items_fun) (h1.then h)
    · exact .rule (.strict .items_struct) (h1.then h)

theorem ve_itemList (H : Stops c e) : Ve c e itemList ⟨w, u, n, i, o⟩ (Begun [.nt .itemBody] w) False := by
  unfold itemList
  rw [ve_at_eq]
  refine ve_assert _ _ _ fun _ => ?_
  vred
  refine ve_bump _ nofun ?_
  rintro t l1 l2 w1 u1 n1 rfl
  have ht := Took.tok (w := w1) t l1 l2 .nil (k := .L_BRACE) rfl
  refine ve_seq H.shrinks (H.toMeets.call .itemLoop)
    (H.call .itemLoop fun w' h => .rule (.strict .item_body) (ht.mid h)) ?_
  intro _ w2 u2 n2 i2 h2
  refine ve_expect _ nofun (.rule (.strict .item_body) (ht.trans h2).stop) ?_
  rintro t' l1' l2' w3 u3 n3 rfl
  vred
  exact ve_done _ _

theorem ve_itemListOrSemi (H : Stops c e) :
    Ve c e itemListOrSemi ⟨w, u, n, i, o⟩ (Begun [.nt .itemBody] w) False := by
  unfold itemListOrSemi
  refine ve_at _ (fun u' h => ?_) (fun u' h => ?_)
  · vred
    exact ve_itemList H
  · vred
    refine ve_eat _ nofun ?_ ?_
    · rintro t l1 l2 w1 u1 n1 rfl
      vred
      exact ve_done _ _
    · intro u1 _
      vred
      exact ve_error' _ _ (.here _)

/-! ### Modules, scripts and addresses -/

theorem ve_addressIdentR (H : Stops c e) (ts : TokenSet) :
    Ve c e (addressIdentR ts) ⟨w, u, n, i, o⟩ (Begun [.nt .address] w) False := by
  unfold addressIdentR
  vred
  refine ve_seq H.shrinks sd_bumpAddress_stay ve_bumpAddress ?_
  intro r w1 u1 n1 i1 h1
  cases r with
  | false =>
    vred
    obtain ⟨rfl, rfl⟩ := h1.2 rfl
    exact ve_errorAndSkipUntil _ _ _ (.here _)
  | true =>
    vred
    exact ve_done _ _

theorem ve_moduleDef (H : Stops c e) : Ve c e moduleDef ⟨w, u, n, i, o⟩ (Begun [.nt .moduleDef] w) False := by
  unfold moduleDef
  vred
  rw [ve_at_eq]
  refine ve_assert _ _ _ fun _ => ?_
  refine ve_bump _ nofun ?_
  rintro t l1 l2 w1 u1 n1 rfl
  have h0 := Took.tok (w := w1) t l1 l2 .nil (k := .MODULE_KW) rfl
  vred
  split
  · refine ve_seq H.shrinks (sd_addressIdentR H.toMeets _)
      (ve_sub (ve_addressIdentR H _) fun w' h => .rule (.strict .module_at) (h0.mid h)) ?_
    intro _ w2 u2 n2 i2 h2
    refine ve_bump _ nofun ?_
    rintro t' l1' l2' w3 u3 n3 rfl
    have h3 := h0.trans (h2.trans (.tok t' l1' l2' _ rfl))
    refine ve_seq H.shrinks (sd_name H.toMeets) (ve_name (.rule (.strict .module_at) h3.stop)) ?_
    intro _ w4 u4 n4 i4 h4
    have h4 := h3.trans h4
    refine ve_seq H.shrinks (sd_itemListOrSemi H.toMeets)
      (ve_sub (ve_itemListOrSemi H) fun w' h => .rule (.strict .module_at) (h4.then h)) ?_
    intro _ w5 u5 n5 i5 _
    vred
    exact ve_done _ _
  · refine ve_seq H.shrinks (sd_name H.toMeets) (ve_name (.rule (.strict .module_plain) h0.stop)) ?_
    intro _ w4 u4 n4 i4 h4
    have h4 := h0.trans h4
    refine ve_seq H.shrinks (sd_itemListOrSemi H.toMeets)
      (ve_sub (ve_itemListOrSemi H) fun w' h => .rule (.strict .module_plain) (h4.then h)) ?_
    intro _ w5 u5 n5 i5 _
    vred
    exact ve_done _ _

theorem ve_addressItemLoop (H : Stops c e) :
    Ve c e addressItemLoopBody ⟨w, u, n, i, o⟩ (Begun [.nt .modules] w) False := by
  unfold addressItemLoopBody
  refine ve_neither _ _ _ (fun u' _ => ?_) (fun u' _ hne => ?_)
  · vred
    exact ve_done _ _
  · vred
    refine ve_seq H.shrinks (sd_moduleDef H.toMeets) (ve_sub (ve_moduleDef H) fun w' h =>
      .rule (.strict .modules_cons) (h.pad (b := [.nt .modules]))) ?_
    intro _ w1 u1 n1 i1 h1
    exact H.call .addressItemLoop fun w' h => .rule (.strict .modules_cons) (h1.then h)

theorem ve_addressItemList (H : Stops c e) :
    Ve c e addressItemList ⟨w, u, n, i, o⟩ (Begun [.nt .moduleList] w) False := by
  unfold addressItemList
  rw [ve_at_eq]
  refine ve_assert _ _ _ fun _ => ?_
  vred
  refine ve_bump _ nofun ?_
  rintro t l1 l2 w1 u1 n1 rfl
  have ht := Took.tok (w := w1) t l1 l2 .nil (k := .L_BRACE) rfl
  refine ve_seq H.shrinks (H.toMeets.call .addressItemLoop)
    (H.call .addressItemLoop fun w' h => .rule (.strict .module_list) (ht.mid h)) ?_
  intro _ w2 u2 n2 i2 h2
  refine ve_expect _ nofun (.rule (.strict .module_list) (ht.trans h2).stop) ?_
  rintro t' l1' l2' w3 u3 n3 rfl
  vred
  exact ve_done _ _

theorem ve_addressDef (H : Stops c e) : Ve c e addressDef ⟨w, u, n, i, o⟩ (Begun [.nt .addressDef] w) False := by
  unfold addressDef
  vred
  refine ve_eat _ nofun ?_ fun u1 _ => ve_assert _ _ _ nofun
  rintro t l1 l2 w1 u1 n1 rfl
  have ht := Took.tok (w := w1) t l1 l2 .nil (k := .ADDRESS_KW) rfl
  refine ve_assert _ _ _ fun _ => ?_
  refine ve_seq H.shrinks (sd_addressIdentR H.toMeets _)
    (ve_sub (ve_addressIdentR H _) fun w' h => .rule (.strict .address_block) (ht.mid h)) ?_
  intro _ w2 u2 n2 i2 h2
  have h2 := ht.trans h2
  refine ve_at _ (fun u' h => ?_) (fun u' h => ?_)
  · vred
    refine ve_seq H.shrinks (sd_addressItemList H.toMeets)
      (ve_sub (ve_addressItemList H) fun w' h => .rule (.strict .address_block) (h2.then h)) ?_
    intro _ w3 u3 n3 i3 h3
    vred
    exact ve_done _ _
  · vred
    exact ve_error _ _ _ (.rule (.strict .address_block) h2.stop)

theorem ve_scriptDef (H : Stops c e) : Ve c e scriptDef ⟨w, u, n, i, o⟩ (Begun [.nt .scriptDef] w) False := by
  unfold scriptDef
  vred
  refine ve_eat _ nofun ?_ fun u1 _ => ve_assert _ _ _ nofun
  rintro t l1 l2 w1 u1 n1 rfl
  have ht := Took.tok (w := w1) t l1 l2 .nil (k := .SCRIPT_KW) rfl
  refine ve_assert _ _ _ fun _ => ?_
  refine ve_seq H.shrinks (sd_itemListOrSemi H.toMeets)
    (ve_sub (ve_itemListOrSemi H) fun w' h => .rule (.strict .script) (ht.then h)) ?_
  intro _ w2 u2 n2 i2 _
  vred
  exact ve_done _ _

theorem ve_rootLoop (H : Stops c e) : Ve c e rootLoopBody ⟨w, u, n, i, o⟩ (Begun [.nt .file] w) False := by
  refine ve_coherent fun hw => ?_
  unfold rootLoopBody
  refine ve_at _ (fun u' _ => ?_) (fun u' hne => ?_)
  · vred
    exact ve_done _ _
  · vred
    refine ve_at _ (fun u' _ => ?_) (fun u' _ => ?_)
    · vred
      refine ve_seq H.shrinks (sd_moduleDef H.toMeets)
        (ve_sub (ve_moduleDef H) fun w' h => .rule (.strict .file_module) (h.pad (b := [.nt .file]))) ?_
      intro _ w1 u1 n1 i1 h1
      exact H.call .rootLoop fun w' h => .rule (.strict .file_module) (h1.then h)
    · vred
      refine ve_at _ (fun u' _ => ?_) (fun u' _ => ?_)
      · vred
        refine ve_seq H.shrinks (sd_scriptDef H.toMeets)
          (ve_sub (ve_scriptDef H) fun w' h => .rule (.strict .file_script) (h.pad (b := [.nt .file]))) ?_
        intro _ w1 u1 n1 i1 h1
        exact H.call .rootLoop fun w' h => .rule (.strict .file_script) (h1.then h)
      · vred
        refine ve_at _ (fun u' _ => ?_) (fun u' _ => ?_)
        · vred
          refine ve_seq H.shrinks (sd_addressDef H.toMeets)
            (ve_sub (ve_addressDef H) fun w' h => .rule (.strict .file_address) (h.pad (b := [.nt .file]))) ?_
          intro _ w1 u1 n1 i1 h1
          exact H.call .rootLoop fun w' h => .rule (.strict .file_address) (h1.then h)
        · vred
          have : (kind0 w).isTrivia = false := by
            cases w with
            | nil => exact absurd rfl hne
            | cons t w => exact hw.1.2.2
          rw [this]
          vred
          exact ve_error _ _ _ (.here _)

end

/-! ### All functions -/

theorem stops (n : Nat) : Stops (callN strictTok body n) (haltsN n) := by
  induction n with
  | zero => exact ⟨meets 0, haltsN_cuts 0, fun f s _ => ⟨fun t h => absurd h id, fun _ r s' e => by cases e⟩⟩
  | succ n H =>
    refine ⟨meets (n + 1), haltsN_cuts (n + 1), ?_⟩
    rintro f ⟨w, u, m, i, o⟩ hw
    have key : ∀ (V : List Tok → Prop) (F : Prop),
        Ve (callN strictTok body n) (haltsN n) (body f) ⟨w, u, m, i, o⟩ V F →
        (∀ w', V w' → StopQ f w i w') → (isFin f → F) →
        (∀ t, haltsN (n + 1) f ⟨w, u, m, i, o⟩ t → StopQ f w i t.toks) ∧
          (isFin f → ∀ r s', callN strictTok body (n + 1) f ⟨w, u, m, i, o⟩ = .ok r s' → s'.toks = [] →
            StopQ f w i []) := by
      intro V F h hV hF
      obtain ⟨h1, h2⟩ := h hw
      exact ⟨fun t ht => hV _ (h1 t ht), fun hf r s' er hn => hV _ (h2 (hF hf) r s' er hn)⟩
    show (∀ t, haltsN (n + 1) f ⟨w, u, m, i, o⟩ t → StopQ f w i t.toks) ∧
          (isFin f → ∀ r s', callN strictTok body (n + 1) f ⟨w, u, m, i, o⟩ = .ok r s' → s'.toks = [] →
            StopQ f w i [])
    cases f with
    | skipUntil ts => exact ⟨fun _ _ => trivial, False.elim⟩
    | rootLoop => exact key _ _ (ve_rootLoop H) (fun _ h => h) False.elim
    | addressItemLoop => exact key _ _ (ve_addressItemLoop H) (fun _ h => h) False.elim
    | itemLoop => exact key _ _ (ve_itemLoop H) (fun _ h => h) False.elim
    | recordFieldLoop => exact key _ _ (ve_recordFieldLoop H) (fun _ h => h) False.elim
    | paramLoop => exact key _ _ (ve_paramLoop H) (fun _ h => h) False.elim
    | type_ => exact key _ _ (ve_type H) (fun _ h => h) False.elim
    | pathLoop qual =>
      refine ⟨?_, False.elim⟩
      rintro t ht j k pre kids rfl
      exact (key _ _ (ve_pathLoop H qual) (fun w' h _ _ _ _ _ => h) False.elim).1 t ht _ _ _ _ rfl
    | genericParamLoop => exact key _ _ (ve_genericParamLoop H) (fun _ h => h) False.elim
    | boundsLoop => exact key _ _ (ve_boundsLoop H) (fun _ h => h) False.elim
    | pattern => exact key _ _ (ve_pattern H) (fun _ h => h) False.elim
    | tuplePatLoop a b d => exact key _ _ (ve_tuplePatLoop H a b d) (fun _ h => h) False.elim
    | recordPatLoop => exact key _ _ (ve_recordPatLoop H) (fun _ h => h) False.elim
    | blockLoop => exact key _ _ (ve_blockLoop H) (fun _ h => h) fun _ => trivial
    | exprBlockLoop => exact ⟨fun _ _ => trivial, False.elim⟩
    | stmt ws =>
      cases ws with
      | optional => exact key _ _ (ve_stmt H) (fun _ h => h) fun _ => trivial
      | yes => exact ⟨fun _ _ => trivial, False.elim⟩
      | no => exact ⟨fun _ _ => trivial, False.elim⟩
    | exprBp bp =>
      by_cases hbp : 1 ≤ bp
      · exact key _ _ (ve_exprBp H bp hbp) (fun _ h _ => h) fun _ => trivial
      · exact ⟨fun _ _ h => absurd h hbp, fun _ _ _ _ _ h => absurd h hbp⟩
    | exprBpLoop bp lhs =>
      by_cases hbp : 1 ≤ bp
      · constructor
        · rintro t ht _ j k pre kids rfl
          exact (key _ _ (ve_exprBpLoop H bp hbp lhs) (fun w' h _ _ _ _ _ e => by cases e; exact h)
            fun _ => trivial).1 t ht hbp _ _ _ _ rfl
        · rintro hf r s' er hn _ j k pre kids rfl
          exact (key _ _ (ve_exprBpLoop H bp hbp lhs) (fun w' h _ _ _ _ _ e => by cases e; exact h)
            fun _ => trivial).2 hf r s' er hn hbp _ _ _ _ rfl
      · exact ⟨fun _ _ h => absurd h hbp, fun _ _ _ _ _ h => absurd h hbp⟩
    | postfixLoop lhs =>
      constructor
      · rintro t ht j k pre kids rfl
        exact (key _ _ (ve_postfixLoop H lhs) (fun w' h _ _ _ _ e => by cases e; exact h)
          fun _ => trivial).1 t ht _ _ _ _ rfl
      · rintro hf r s' er hn j k pre kids rfl
        exact (key _ _ (ve_postfixLoop H lhs) (fun w' h _ _ _ _ e => by cases e; exact h)
          fun _ => trivial).2 hf r s' er hn _ _ _ _ rfl
    | argLoop => exact key _ _ (ve_argLoop H) (fun _ h => h) fun _ => trivial
    | recordExprLoop => exact key _ _ (ve_recordExprLoop H) (fun _ h => h) fun _ => trivial
    | parenLoop => exact key _ _ (ve_parenLoop H) (fun _ h => h) fun _ => trivial

/-! ### The whole file -/

theorem halts_rootLoop_trivia {x : Kind × Text} {ts : List (Kind × Text)} (hx : x.1.isTrivia = true)
    {c : (f : Fn) → TState → Out TState f.Res} {e : Fn → TState → TState → Prop} {m : Nat}
    {o : List (Forest × Forest)} {t : TState}
    (h : halts c e rootLoopBody ⟨annot (x :: ts), 0, m, .nil, o⟩ t) :
    ∃ u, e .rootLoop ⟨annotSig ts, u, m + 1, .tok .nil x.1, o⟩ t := by
  have last : ∀ {α : Type} {k : Out TState α}, (k.Then fun _ _ => False) → False := by
    intro α k hk
    cases k <;> exact hk
  obtain ⟨k, y⟩ := x
  have : k = .WHITESPACE ∨ k = .COMMENT := by simpa [Kind.isTrivia] using hx
  rcases this with rfl | rfl
  · rcases h with h | h
    · exact ⟨_, h⟩
    · exact absurd h last
  · rcases h with h | h
    · exact ⟨_, h⟩
    · exact absurd h last

/-- Where the run over a whole file meets its first error, the significant tokens read so far begin a
file. -/
theorem rootLoop_begun {ts : List (Kind × Text)} (h : ∀ x ∈ ts, isTokenKind x.1 = true) (n m : Nat)
    (o : List (Forest × Forest)) {t : TState} (ht : haltsN n .rootLoop ⟨annot ts, 0, m, .nil, o⟩ t) :
    Begun [.nt .file] (annotSig ts) t.toks := by
  cases ts with
  | nil => exact ((stops n).stop .rootLoop ⟨[], 0, m, .nil, o⟩ trivial).1 t ht
  | cons x ts =>
    cases hx : x.1.isTrivia with
    | false =>
      have ha : annotSig (x :: ts) = annot (x :: ts) := by simp [annotSig, annot, hx]
      have hc := coherent_annotSig h
      rw [ha] at hc ⊢
      exact ((stops n).stop .rootLoop _ hc).1 t ht
    | true =>
      have ha : annotSig (x :: ts) = annotSig ts := by simp [annotSig, hx]
      rw [ha]
      cases n with
      | zero => exact absurd ht id
      | succ n =>
        obtain ⟨u, hu⟩ := halts_rootLoop_trivia hx ht
        exact ((stops n).stop .rootLoop _
          (coherent_annotSig fun y hy => h y (List.mem_cons_of_mem _ hy))).1 t hu

theorem root_begun {ts : List (Kind × Text)} (h : ∀ x ∈ ts, isTokenKind x.1 = true) (n : Nat) {t : TState}
    (ht : halts (callN strictTok body n) (haltsN n) root ⟨annot ts, 0, 0, .nil, []⟩ t) :
    Begun [.nt .file] (annotSig ts) t.toks := by
  have ht : haltsN n .rootLoop ⟨annot ts, 0, 1, .nil, [(.nil, .nil)]⟩ t ∨
      (callN strictTok body n .rootLoop ⟨annot ts, 0, 1, .nil, [(.nil, .nil)]⟩).Then fun _ s' =>
        (tComplete ⟨0⟩ .SOURCE_FILE s').Then fun _ _ => False := ht
  rcases ht with ht | ht
  · exact rootLoop_begun h n 1 _ ht
  · obtain ⟨_, s1, _, h1⟩ := ht.ok
    obtain ⟨_, _, _, h2⟩ := h1.ok
    exact absurd h2 id

end Verif.Parser
