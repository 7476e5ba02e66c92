import Verif.Scope.Fate

/-
The events that end a session.
-/
set_option linter.unusedSimpArgs false
set_option linter.unusedVariables false
namespace Verif.Scope

variable {α κ : Type}

theorem cleanupEntire_values (cfg : Cfg) (c : Cleanup) (status : Finish κ)
    (now : List (Ent × Ent)) : ∀ (l : List Ent) (st : State α κ),
      (cleanupEntire cfg c status now l st).values = st.values := by
  intro l
  induction l with
  | nil => intro st; rfl
  | cons s ss ih =>
    intro st
    simp only [cleanupEntire]
    split
    · rfl
    · rename_i st' e
      rw [ih]
      unfold cleanOne at e
      split at e
      · cases e
      · dsimp only at e
        split at e
        · injection e with e; rw [← e]
        · injection e with e; rw [← e, (cleanNodes_frame _ _ _ _ _ _).values]

theorem cancelOne_values (cfg : Cfg) (s : Ent) (k : κ) (now : List (Ent × Ent)) (st : State α κ) :
    (cancelOne cfg s k now st).values = st.values := by
  unfold cancelOne; rw [cleanupEntire_values]

theorem cancelAll_values (cfg : Cfg) (k : κ) (now : List (Ent × Ent)) : ∀ (l : List Ent)
    (st : State α κ), (cancelAll cfg k now l st).values = st.values := by
  intro l
  induction l with
  | nil => intro st; rfl
  | cons s ss ih => intro st; simp only [cancelAll]; rw [ih, cancelOne_values]

theorem validate_values (cfg : Cfg) (s : Ent) (u : Option κ) (now : List (Ent × Ent))
    (st : State α κ) : (validate cfg s u now st).values = st.values := by
  unfold validate
  split
  · rfl
  · split
    · rfl
    · dsimp only
      split
      · rw [cleanupEntire_values]
      · rfl

theorem begin_values (cfg : Cfg) (p : Ent) (bl : Bool) (c u : Option κ) (now : List (Ent × Ent))
    (st : State α κ) : (beginScope cfg p bl c u now st).values = st.values := by
  unfold beginScope
  dsimp only
  split
  · rw [cancelOne_values]
  · rw [validate_values]
  · rfl
  · split
    · rw [cancelOne_values]
    · rw [validate_values]

theorem terminate_values (cfg : Cfg) (s : Ent) (v : α) (now : List (Ent × Ent)) (st : State α κ) :
    (terminate cfg s v now st).values = st.values ++ [(s, v)] := by
  unfold terminate
  dsimp only
  split
  · rfl
  · split
    · rfl
    · split
      · rw [cleanupEntire_values]
      · rfl

theorem dynCleanup_values (cfg : Cfg) (c : Cleanup) (now : List (Ent × Ent)) (st : State α κ) :
    (dynCleanup cfg c now st).values = st.values := by
  unfold dynCleanup
  dsimp only
  split
  · rfl
  · rw [cleanupEntire_values]

theorem finalize_values (cfg : Cfg) (i : Nat) (st : State α κ) :
    (finalize cfg i st).values = st.values := by
  unfold finalize
  split
  · rfl
  · rename_i a _
    have h1 : (endEntry i a st).values = st.values := by
      unfold endEntry; split <;> rfl
    have h2 : ∀ st : State α κ, (notifyParent a st).values = st.values := by
      intro st; unfold notifyParent; split <;> rfl
    have h3 : ∀ (bl : Bool) (st : State α κ), (leave a.sid bl st).values = st.values := by
      intro bl st; unfold leave; cases bl <;> rfl
    have h4 : ∀ st : State α κ, (deliver cfg a st).values = st.values := by
      intro st
      unfold deliver
      dsimp only
      split
      · rfl
      · split
        · split
          · rfl
          · rw [h3]; rfl
        · rw [h3]
    rw [h4, h2, h1]

theorem trigger_values (cfg : Cfg) (st : State α κ) : (trigger cfg st).values = st.values := by
  unfold trigger
  split
  · rfl
  · unfold beginFlows
    dsimp only
    split
    · rfl
    · unfold checkAwaiting
      split
      · rfl
      · split
        · split
          · rw [finalize_values]
          · rfl
        · rfl

theorem deduct_values (cfg : Cfg) (w : Ent) (k : Option κ) (st : State α κ) :
    (deduct cfg w k st).values = st.values := by
  unfold deduct
  split
  · rfl
  · split
    · rfl
    · dsimp only
      split
      · rw [finalize_values]
      · rfl

theorem step_values (cfg : Cfg) (st : State α κ) (e : Ev α κ) :
    ∃ vs, (step cfg st e).values = st.values ++ vs := by
  cases e with
  | spawn => exact ⟨[], by simp [step]⟩
  | «begin» p bl c u now => exact ⟨[], by simp [step, begin_values]⟩
  | terminate s v now =>
    simp only [step]
    split
    · exact ⟨_, terminate_values cfg s v now st⟩
    · exact ⟨[], by simp⟩
  | cancel s k now =>
    cases s with
    | none => exact ⟨[], by simp [step, cancelAll_values]⟩
    | some s => exact ⟨[], by simp [step, cancelOne_values]⟩
  | validate s u now => exact ⟨[], by simp [step, validate_values]⟩
  | cleanup c now => exact ⟨[], by simp [step, dynCleanup_values]⟩
  | cleaned c =>
    refine ⟨[], ?_⟩
    simp only [step, List.append_nil]
    split
    · rw [(register_frame _ _).values]
    · rfl
  | trigger => exact ⟨[], by simp [step, trigger_values]⟩
  | flowDone w k => exact ⟨[], by simp [step, deduct_values]⟩
  | despawn p => exact ⟨[], by simp [step]⟩

theorem firstValue_mono (cfg : Cfg) (s : Ent) (v : α) : ∀ (es : List (Ev α κ)) (st : State α κ),
    firstValue s st = some v → firstValue s (run cfg st es) = some v := by
  intro es
  induction es with
  | nil => intro st h; exact h
  | cons e es ih =>
    intro st h
    refine ih _ ?_
    obtain ⟨vs, hv⟩ := step_values cfg st e
    unfold firstValue at h ⊢
    rw [hv, List.find?_append]
    cases hf : st.values.find? (fun v => v.1 = s) with
    | none => rw [hf] at h; cases h
    | some q => rw [hf] at h; simpa using h

/-- The first entry is made when the session is not known to be dead. -/
theorem cleanupEntire_first (cfg : Cfg) (c : Cleanup) (f : Finish κ) (now : List (Ent × Ent))
    (s p : Ent) (st : State α κ) (h : st.alive s = some p) :
    Fate s p f (cleanupEntire cfg c f now [s] st) := by
  simp only [cleanupEntire]
  cases e : cleanOne cfg c f now s st with
  | none => unfold cleanOne at e; rw [h] at e; dsimp only at e; split at e <;> cases e
  | some st' =>
    obtain ⟨_, a, ha, h1, h2, h3⟩ := cleanOne_grow cfg c f now s st st' e
    refine Or.inl ⟨a, ha, h1, ?_, by rw [h3]; exact SameEnd.refl _⟩
    rw [h] at h2; exact (Option.some.inj h2).symm

theorem transitionOne_found {s : Ent} (f : Status → Status × Bool) {l : List Scoped} {x : Scoped}
    (hnd : (l.map (·.sid)).Nodup) (hx : x ∈ l) (hs : x.sid = s) :
    ∃ l', transitionOne s f l = some (l', (f x.status).2) := by
  have hsp := transitionOne_spec s f l
  cases h : transitionOne s f l with
  | none => rw [h] at hsp; exact absurd hs (hsp x hx)
  | some r =>
    obtain ⟨l', b⟩ := r
    rw [h] at hsp
    obtain ⟨l1, y, l2, hl, hy, _, _, hb⟩ := hsp
    have : y = x := eq_of_nodup_map _ hnd (by rw [hl]; simp) hx (hy.trans hs.symm)
    rw [hb, this]
    exact ⟨l', rfl⟩

theorem validate_ends (cfg : Cfg) (st : State α κ) (s p : Ent) (k : κ) (now : List (Ent × Ent))
    (h : Quiet cfg none st) (ho : Ongoing s p st) :
    Fate s p (.cancelled k []) (validate cfg s (some k) now st) := by
  unfold validate
  dsimp only
  obtain ⟨l', e⟩ := transitionOne_found Status.toCancelled h.nodup ho rfl
  dsimp only at e
  rw [e]
  exact cleanupEntire_first cfg _ _ now s p _ (h.alive _ ho)

theorem terminate_ends (cfg : Cfg) (st : State α κ) (s p : Ent) (v : α) (now : List (Ent × Ent))
    (h : Quiet cfg none st) (hsafe : Safe st) (ho : Ongoing s p st) :
    Fate s p .terminated (terminate cfg s v now st) := by
  have hf := hsafe.fresh _ ho trivial
  unfold terminate
  dsimp only at hf ⊢
  rw [hf.2.2.1]
  dsimp only
  obtain ⟨l', e⟩ := transitionOne_found Status.toFinished h.nodup ho rfl
  dsimp only at e
  rw [e]
  exact cleanupEntire_first cfg _ _ now s p _ (h.alive _ ho)

/-- A cancellation of a session that is on its way, when the signal concerns only it. -/
theorem cancelOne_ends (cfg : Cfg) (st : State α κ) (s p session : Ent) (k : κ)
    (now : List (Ent × Ent)) (h : Quiet cfg none st) (ho : Ongoing s p st)
    (hm : session = s ∨ session = p)
    (hc : (st.sessions.filter (fun p => p.sid == session || p.parent == session)).length ≤ 1) :
    Fate s p (.cancelled k []) (cancelOne cfg session k now st) := by
  unfold cancelOne
  have hp : (s == session || p == session) = true := by
    rcases hm with rfl | rfl <;> simp
  obtain ⟨l1, l2, hl, n1, n2⟩ := split_filter _ ho hp hc
  have ht : (transition (fun p => p.sid == session || p.parent == session) Status.toCancelled
      st.sessions).2 = [s] := by
    rw [hl, transition_append, transition_none _ _ l1 (fun y hy hpy => by
      rw [n1 y hy] at hpy; cases hpy)]
    have : (⟨p, s, .ongoing⟩ :: l2 : List Scoped) = [⟨p, s, .ongoing⟩] ++ l2 := rfl
    rw [this, transition_append, transition_none _ _ l2 (fun y hy hpy => by
      rw [n2 y hy] at hpy; cases hpy)]
    simp only [transition, List.map_cons, List.map_nil, List.filter_cons, hp, if_true,
      Status.toCancelled, Bool.and_self, List.filter_nil, List.nil_append, List.append_nil]
  dsimp only
  rw [ht]
  exact cleanupEntire_first cfg _ _ now s p _ (h.alive _ ho)

/-- A cancel signal that does not concern a session leaves it alone. -/
theorem cancelOne_other (cfg : Cfg) (st : State α κ) (s p session : Ent) (k : κ)
    (now : List (Ent × Ent)) (ho : Ongoing s p st) (hm : ¬ (session = s ∨ session = p)) :
    Ongoing s p (cancelOne cfg session k now st) := by
  unfold Ongoing cancelOne
  rw [cleanupEntire_sessions]
  simp only [transition]
  refine List.mem_map.mpr ⟨_, ho, ?_⟩
  rw [if_neg]
  simp only [Bool.or_eq_true, beq_iff_eq]
  rintro (q | q)
  · exact hm (Or.inl q.symm)
  · exact hm (Or.inr q.symm)

theorem cancelAll_ends (cfg : Cfg) (hn : cfg.nodes.Nodup) (s p : Ent) (k : κ) (now : List (Ent × Ent)) :
    ∀ (l : List Ent) (st : State α κ), Quiet cfg none st → Ongoing s p st → s ∈ l →
      (∀ session, (st.sessions.filter
        (fun p => p.sid == session || p.parent == session)).length ≤ 1) →
      Fate s p (.cancelled k []) (cancelAll cfg k now l st) := by
  intro l
  induction l with
  | nil => intro st _ _ hm; cases hm
  | cons j l ih =>
    intro st h ho hm hc
    simp only [cancelAll]
    by_cases hj : j = s ∨ j = p
    · have hf := cancelOne_ends cfg st s p j k now h ho hj (hc j)
      have hg := cancelAll_grow cfg k now l (cancelOne cfg j k now st)
      exact hf.mono hg.1 hg.2
    · refine ih _ (cancelOne_quiet cfg hn st h j k now (hc j)) (cancelOne_other cfg st s p j k now ho hj) ?_ ?_
      · rcases List.mem_cons.mp hm with rfl | hm
        · exact absurd (Or.inl rfl) hj
        · exact hm
      · intro session
        rw [count_names session _ _ (cancelOne_names cfg j k now st)]
        exact hc session

def endOf : α ⊕ κ → Finish κ
  | .inl _ => .terminated
  | .inr k => .cancelled k []

theorem step_ends (cfg : Cfg) (hn : cfg.nodes.Nodup) (st : State α κ) (s p : Ent) (e : Ev α κ)
    (r : α ⊕ κ) (h : Quiet cfg none st) (hsafe : Safe st) (hc : Calm st e) (ho : Ongoing s p st)
    (he : e.ends s p = some r) : Fate s p (endOf r) (step cfg st e) ∧
      ∀ v, r = .inl v → firstValue s (step cfg st e) = some v := by
  have hlt : s < st.next := (h.bS _ ho).1
  cases e with
  | spawn => cases he
  | «begin» p bl c u now => cases he
  | terminate s' v now =>
    simp only [Ev.ends] at he
    split at he
    · rename_i q
      subst q
      injection he with he
      subst he
      simp only [step, if_pos hlt]
      refine ⟨terminate_ends cfg st s' p v now h hsafe ho, ?_⟩
      intro v' hv
      injection hv with hv
      subst hv
      have hf := (hsafe.fresh _ ho trivial).2.2.2
      unfold firstValue at hf ⊢
      rw [terminate_values, List.find?_append]
      dsimp only at hf
      rw [Option.map_eq_none_iff] at hf
      rw [hf]
      simp
    · cases he
  | cancel s' k now =>
    cases s' with
    | none =>
      injection he with he
      subst he
      exact ⟨cancelAll_ends cfg hn s p k now _ st h ho (List.mem_map.mpr ⟨_, ho, rfl⟩) hc,
        fun v hv => by cases hv⟩
    | some s' =>
      simp only [Ev.ends] at he
      split at he
      · rename_i q
        injection he with he
        subst he
        exact ⟨cancelOne_ends cfg st s p s' k now h ho q hc, fun v hv => by cases hv⟩
      · cases he
  | validate s' u now =>
    cases u with
    | none => cases he
    | some k =>
      simp only [Ev.ends] at he
      split at he
      · rename_i q
        subst q
        injection he with he
        subst he
        exact ⟨validate_ends cfg st s' p k now h ho, fun v hv => by cases hv⟩
      · cases he
  | cleanup c now => cases he
  | cleaned c => cases he
  | trigger => cases he
  | flowDone w k => cases he
  | despawn p => cases he

end Verif.Scope
