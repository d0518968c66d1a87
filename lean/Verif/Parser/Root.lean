import Verif.Parser.GrammarBodies

set_option autoImplicit false

/-!
The run of the whole grammar: from the initial state, through `root`, on the high-level machine
and, by agreement, on the machine of the Rust code.
-/

namespace Verif.Parser

/-- The state before the first operation. -/
def HState.initial (lx : Lexer.Lexer) : HState := ⟨lx, 0, 0, .nil, []⟩

/-- The state after the last operation: one finished tree, all of the text read. -/
structure Finished (text : Text) (h : HState) : Prop where
  inv : HInv text h
  eof : h.lexer.token.kind = .EOF
  outer : h.outer = []
  tree : ∃ kids, h.items = .node .nil .SOURCE_FILE .nil kids

theorem root_eq : root = .start fun m => .call .rootLoop fun _ =>
    .complete m .SOURCE_FILE fun _ => .pure () := rfl

theorem initial_inv {text : Text} {lx : Lexer.Lexer} (h : Lexer.new text = some lx) :
    HInv text (HState.initial lx) := by
  obtain ⟨hv, ht⟩ := Lexer.new_valid h
  refine ⟨⟨rfl, rfl, rfl, rfl, trivial, trivial⟩, ht, ⟨[], text, hv, .nil, fun _ => rfl, fun _ h => by cases h⟩, fun _ => Nat.zero_le 1⟩

/-- How a run of the grammar ends. -/
def Ends (text : Text) : Out (HState × Nat) Unit → Prop
  | .ok _ (h, _) => Finished text h
  | .panic w => Allowed w
  | .outOfFuel => False

theorem maxDepth_eq {text : Text} {lx : Lexer.Lexer} (hnew : Lexer.new text = some lx) :
    maxDepth text = gain * (HState.initial lx).measure + 31 + 1 := by
  have h1 := (Lexer.new_valid hnew).1.start
  have h2 := (Lexer.new_valid hnew).2
  simp only [maxDepth, HState.measure, HState.initial, gain, h2]
  rw [h2] at h1
  have : lx.curStart = 0 := by omega
  rw [this]
  omega

/-- The run on the high-level machine, within the budget. -/
theorem root_good {text : Text} {lx : Lexer.Lexer} (hnew : Lexer.new text = some lx) (n : Nat)
    (hn : maxDepth text ≤ n) :
    Ends text (run (budgeted highLevel) (callB highLevel body n) root (HState.initial lx, maxDepth text)) := by
  have hi := initial_inv hnew
  rw [maxDepth_eq hnew] at hn ⊢
  have hstart : highLevel.start (HState.initial lx)
      = .ok ⟨0⟩ ⟨lx, 0, 1, .nil, [⟨⟨0⟩, .nil, .nil⟩]⟩ := rfl
  have hi1 : HInv text ⟨lx, 0, 1, .nil, [⟨⟨0⟩, .nil, .nil⟩]⟩ :=
    hi.keep (agree_ok (agree_start hi.rep) hstart) rfl rfl (fun _ => Nat.le_refl 1)
      (fun hl => lead_agree (agree_start hi.rep) hstart fun l hl' => by cases hl'; exact hl.append _)
  have hsat : Sat [] ⟨lx, 0, 1, .nil, [⟨⟨0⟩, .nil, .nil⟩]⟩
      ⟨lx.token.kind, none, [(⟨0⟩, false)], none, 31⟩ := by
    refine ⟨rfl, (fun _ h => by cases h), ⟨[⟨⟨0⟩, .nil, .nil⟩], rfl, rfl, fun _ => rfl, trivial⟩, (fun _ h => by cases h)⟩
  have hgood := callB_good grammar_ok text n .rootLoop _ (gain * (HState.initial lx).measure + 31) _ []
    trivial hsat hi1 (Nat.le_refl _) (by simp only [cost]; omega) (by omega)
  show Ends text (Out.bind (callB highLevel body n .rootLoop
    (⟨lx, 0, 1, .nil, [⟨⟨0⟩, .nil, .nil⟩]⟩, gain * (HState.initial lx).measure + 31)) _)
  generalize callB highLevel body n .rootLoop
    (⟨lx, 0, 1, .nil, [⟨⟨0⟩, .nil, .nil⟩]⟩, gain * (HState.initial lx).measure + 31) = o at hgood
  cases o with
  | outOfFuel => exact hgood
  | panic w => exact hgood
  | ok r s =>
    obtain ⟨h, b⟩ := s
    obtain ⟨⟨k, nx, op, la, cr⟩, ⟨hpost, hop, hcr⟩, sat, inv, hb⟩ := hgood
    simp only [cost] at hop hcr hb
    subst hop
    have heof : k = .EOF := hpost.2
    subst heof
    obtain ⟨frames, hout, hfr⟩ := sat.opens
    match frames, hfr with
    | [sv], ⟨hm, hpre, _⟩ =>
      obtain ⟨mk, pre, items⟩ := sv
      have hpre' : pre = .nil := hpre rfl
      have hm' : mk = ⟨0⟩ := hm
      simp only [List.append_nil] at hout
      clear hm hpre
      subst hm'
      subst hpre'
      have hmark := inv.rep.markers
      rw [hout] at hmark
      have hpos : 0 = items.len := by
        have h := hmark.1
        simp only [Saved.pos, stackEv, Forest.len, List.length_nil] at h
        omega
      have hnil : items = .nil := by
        cases items <;> simp only [Forest.len] at hpos <;> first | rfl | omega
      subst hnil
      have hcomp : highLevel.complete ⟨0⟩ .SOURCE_FILE h = .ok ⟨0, h.n, .SOURCE_FILE⟩
          ⟨h.lexer, h.steps, h.n + 1, .node .nil .SOURCE_FILE .nil h.items, []⟩ := by
        show hComplete _ _ _ = _
        unfold hComplete
        rw [hout]
        rfl
      have hb1 : 1 ≤ b := by omega
      obtain ⟨b, rfl⟩ : ∃ b', b = b' + 1 := ⟨b - 1, by omega⟩
      show Ends text (Out.bind (spend (b + 1) (highLevel.complete ⟨0⟩ .SOURCE_FILE h)) _)
      rw [hcomp]
      refine ⟨inv.keep (agree_ok (agree_complete ⟨0⟩ .SOURCE_FILE inv.rep) hcomp) rfl ?_ ?_ ?_,
        ?_, rfl, ⟨_, rfl⟩⟩
      · simp only [HState.events, hout, stackEv, Forest.ev]
        simp only [tokKinds_append, tokKinds_start]
        show _ ++ [] = _
        rw [List.append_nil]
        rfl
      · intro ht
        have h1 := sat.cur
        simp only at h1
        rw [← h1] at ht
        cases ht
      · exact fun hl => lead_agree (agree_complete ⟨0⟩ .SOURCE_FILE inv.rep) hcomp
          fun l hl' => lead_complete hl' hl
      · exact sat.cur.symm

/-- The initial state of the machine of the Rust code. -/
def PState.initial (lx : Lexer.Lexer) : PState := ⟨lx, [], 0⟩

/-- How a run of the grammar on the machine of the Rust code ends. -/
def EndsLow (text : Text) : Out (PState × Nat) Unit → Prop
  | .ok _ (l, _) => ∃ h, Finished text h ∧ Rep h l
  | .panic w => Allowed w
  | .outOfFuel => False

theorem root_low {text : Text} {lx : Lexer.Lexer} (hnew : Lexer.new text = some lx) (n : Nat)
    (hn : maxDepth text ≤ n) :
    EndsLow text
      (run (budgeted lowLevel) (callB lowLevel body n) root (PState.initial lx, maxDepth text)) := by
  have hg := root_good hnew n hn
  have ha := highLevel_agree.budgeted.run (callB_agree highLevel_agree body n) root
    (HState.initial lx, maxDepth text) (PState.initial lx, maxDepth text)
    ⟨⟨rfl, rfl, rfl, rfl, trivial, trivial⟩, rfl⟩
  generalize run (budgeted highLevel) (callB highLevel body n) root
    (HState.initial lx, maxDepth text) = oh at hg ha
  generalize run (budgeted lowLevel) (callB lowLevel body n) root
    (PState.initial lx, maxDepth text) = ol at ha
  cases oh with
  | ok a s =>
    obtain ⟨h, b⟩ := s
    obtain ⟨⟨l, b'⟩, rfl, hr, _⟩ := ha
    exact ⟨h, hg, hr⟩
  | panic w =>
    rcases hg with rfl | rfl | rfl <;> (simp only [AgreeR] at ha; subst ha)
    · exact .inl rfl
    · exact .inr (.inl rfl)
    · exact .inr (.inr rfl)
  | outOfFuel => exact absurd hg id

/-- The same without budget, at every sufficient depth. -/
theorem parseEvents_cases (text : Text) (n : Nat) (hn : maxDepth text ≤ n) :
    (∃ w, parseEvents n text = .panic w ∧ Allowed w) ∨
    ∃ l h, parseEvents n text = .ok () l ∧ Finished text h ∧ Rep h l := by
  unfold parseEvents
  cases hnew : Lexer.new text with
  | none => exact .inl ⟨_, rfl, .inl rfl⟩
  | some lx =>
    have hg := root_low hnew n hn
    have he := run_erases (M := lowLevel) (cb := callB lowLevel body n) (c := callN lowLevel body n)
      (fun f s => callB_erases lowLevel body n n (Nat.le_refl _) f s) root
      (PState.initial lx, maxDepth text)
    simp only
    generalize run (budgeted lowLevel) (callB lowLevel body n) root
      (PState.initial lx, maxDepth text) = ol at hg he
    rcases he with rfl | he
    · exact absurd hg id
    · simp only [PState.initial] at he
      rw [he]
      cases ol with
      | ok a s =>
        obtain ⟨h, hf, hr⟩ := hg
        exact .inr ⟨_, h, rfl, hf, hr⟩
      | panic w => exact .inl ⟨w, rfl, hg⟩
      | outOfFuel => exact absurd hg id

/-- The outcome does not depend on the depth. -/
theorem parseEvents_depth (text : Text) (n : Nat) (hn : maxDepth text ≤ n) :
    parseEvents n text = parseEvents (maxDepth text) text := by
  unfold parseEvents
  cases hnew : Lexer.new text with
  | none => rfl
  | some lx =>
    have hg := root_low hnew (maxDepth text) (Nat.le_refl _)
    have he := fun m (hm : maxDepth text ≤ m) =>
      run_erases (M := lowLevel) (cb := callB lowLevel body (maxDepth text)) (c := callN lowLevel body m)
        (fun f s => callB_erases lowLevel body (maxDepth text) m hm f s) root
        (PState.initial lx, maxDepth text)
    simp only
    generalize run (budgeted lowLevel) (callB lowLevel body (maxDepth text)) root
      (PState.initial lx, maxDepth text) = ol at hg he
    have h1 := he n hn
    have h2 := he _ (Nat.le_refl _)
    rcases h1 with rfl | h1
    · exact absurd hg id
    · rcases h2 with rfl | h2
      · exact absurd hg id
      · simp only [PState.initial] at h1 h2
        rw [h1, h2]

end Verif.Parser
