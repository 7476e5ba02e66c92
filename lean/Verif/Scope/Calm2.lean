import Verif.Scope.Calm

/-
The remaining events in runs in which the parent leaves the scope alone.
-/
set_option linter.unusedSimpArgs false
set_option linter.unusedVariables false
namespace Verif.Scope

variable {α κ : Type}

theorem validate_quiet (cfg : Cfg) (hn : cfg.nodes.Nodup) (st : State α κ)
    (h : Quiet cfg none st) (session : Ent) (u : Option κ) (now : List (Ent × Ent)) :
    Quiet cfg none (validate cfg session u now st) := by
  unfold validate
  split
  · exact h
  · have hsp := transitionOne_spec session Status.toCancelled st.sessions
    split
    · exact h
    · rename_i sessions changed e
      rw [e] at hsp
      obtain ⟨l1, x, l2, hl, hx, _, hs, hb⟩ := hsp
      have hxm : x ∈ st.sessions := by rw [hl]; simp
      dsimp only
      subst hs hb hx
      rcases h.status x hxm with ho | he
      · rw [ho]
        simp only [Status.toCancelled, if_true]
        exact start_own cfg hn st h l1 l2 x hl ho .cancelled trivial _ _ now (by simp) rfl
      · rw [cancelled_of_ended he]
        simp only [Bool.false_eq_true, if_false]
        have : l1 ++ { x with status := x.status } :: l2 = st.sessions := hl.symm
        exact h.congr this rfl rfl rfl (Nat.le_refl _) rfl rfl rfl rfl rfl rfl rfl (fun _ => rfl)

theorem terminate_quiet (cfg : Cfg) (hn : cfg.nodes.Nodup) (st : State α κ)
    (h : Quiet cfg none st) (session : Ent) (v : α) (now : List (Ent × Ent)) :
    Quiet cfg none (terminate cfg session v now st) := by
  unfold terminate
  dsimp only
  split
  · exact h.congr rfl rfl rfl rfl (Nat.le_refl _) rfl rfl rfl rfl rfl rfl rfl (fun _ => rfl)
  · have hsp := transitionOne_spec session Status.toFinished st.sessions
    have h1 : Quiet cfg none { st with
        values := st.values ++ [(session, v)]
        staging := fun i => if i = session then some v else st.staging i } :=
      h.congr rfl rfl rfl rfl (Nat.le_refl _) rfl rfl rfl rfl rfl rfl rfl (fun _ => rfl)
    split
    · exact h1.congr rfl rfl rfl rfl (Nat.le_refl _) rfl rfl rfl rfl rfl rfl rfl
        (fun s => by rw [outcomes_emit]; simp [Out.isOutcomeOf])
    · rename_i sessions changed e
      rw [e] at hsp
      obtain ⟨l1, x, l2, hl, hx, _, hs, hb⟩ := hsp
      have hxm : x ∈ st.sessions := by rw [hl]; simp
      subst hs hb hx
      rcases h.status x hxm with ho | he
      · rw [ho]
        simp only [Status.toFinished, if_true]
        exact start_own cfg hn _ h1 l1 l2 x hl ho .terminated trivial _ _ now (by simp) rfl
      · have : x.status.toFinished = (x.status, false) := by
          revert he; cases x.status <;> simp [Status.Ended, Status.toFinished]
        rw [this]
        simp only [Bool.false_eq_true, if_false]
        have : l1 ++ { x with status := x.status } :: l2 = st.sessions := hl.symm
        exact h1.congr this rfl rfl rfl (Nat.le_refl _) rfl rfl rfl rfl rfl rfl rfl (fun _ => rfl)

theorem begin_quiet (cfg : Cfg) (hn : cfg.nodes.Nodup) (st : State α κ)
    (h : Quiet cfg none st) (parent : Ent) (bl : Bool) (c u : Option κ) (now : List (Ent × Ent))
    (hp : parent < st.next) :
    Quiet cfg none (beginScope cfg parent bl c u now st) := by
  have h1 : Quiet cfg none { st with
    next := st.next + 1
    begun := st.begun ++ [(st.next, parent)]
    alive := fun i => if i = st.next then some parent else st.alive i
    exits := fun i => if i = st.next ∧ cfg.workflow then some bl else st.exits i
    sessions := st.sessions ++ [{ parent, sid := st.next, status := .ongoing }] } := by
    have hne : ∀ {i}, i < st.next → i ≠ st.next := fun hi => Nat.ne_of_lt hi
    have hoN : outcomes st.next st = [] := by
      cases ho : outcomes st.next st with
      | nil => rfl
      | cons o os => exact absurd (h.oB st.next (by rw [ho]; simp)) (Nat.lt_irrefl _)
    constructor
    · simp only [List.map_append, List.map_cons, List.map_nil]
      refine List.nodup_append.mpr ⟨h.nodup, by simp, ?_⟩
      intro i hi j hj
      simp only [List.mem_singleton] at hj
      obtain ⟨b, hb, rfl⟩ := List.mem_map.mp hi
      rw [hj]; exact hne (h.bS b hb).1
    · exact h.aNodup
    · exact h.noEarly
    · intro x hx
      rcases List.mem_append.mp hx with hx | hx
      · exact h.status x hx
      · simp only [List.mem_singleton] at hx; subst hx; exact Or.inl rfl
    · intro x hx
      rcases List.mem_append.mp hx with hx | hx
      · show (if _ then _ else _) = _
        rw [if_neg (hne (h.bS x hx).1)]; exact h.alive x hx
      · simp only [List.mem_singleton] at hx; subst hx; simp
    · intro hw x hx
      rcases List.mem_append.mp hx with hx | hx
      · show (if _ then _ else _ : Option Bool).isSome
        rw [if_neg (fun e => hne (h.bS x hx).1 e.1)]; exact h.sExit hw x hx
      · simp only [List.mem_singleton] at hx; subst hx; simp [hw]
    · intro hw a ha
      show (if _ then _ else _ : Option Bool).isSome
      rw [if_neg (fun e => hne (h.aB a ha) e.1)]; exact h.aExit hw a ha
    · intro x hx
      rcases List.mem_append.mp hx with hx | hx
      · exact ⟨Nat.lt_succ_of_lt (h.bS x hx).1, Nat.lt_succ_of_lt (h.bS x hx).2⟩
      · simp only [List.mem_singleton] at hx; subst hx
        exact ⟨Nat.lt_succ_self _, Nat.lt_succ_of_lt hp⟩
    · intro x hx he
      rcases List.mem_append.mp hx with hx | hx
      · exact h.started x hx he
      · simp only [List.mem_singleton] at hx; subst hx; cases he
    · intro a ha hf x hx
      rcases List.mem_append.mp hx with hx | hx
      · exact h.begunA a ha hf x hx
      · simp only [List.mem_singleton] at hx; subst hx; exact (hne (h.aB a ha)).symm
    · intro a ha hf
      obtain ⟨x, hx, e⟩ := h.idle a ha hf
      exact ⟨x, List.mem_append_left _ hx, e⟩
    · intro a ha hf
      rcases h.ids a ha hf with e | ⟨e1, e2⟩
      · exact Or.inl e
      · refine Or.inr ⟨e1, fun x hx => ?_⟩
        rcases List.mem_append.mp hx with hx | hx
        · exact e2 x hx
        · simp only [List.mem_singleton] at hx; subst hx
          obtain ⟨y, hy, _, f2, _⟩ := h.idle a ha hf
          rw [e1, ← f2]
          exact (hne (h.bS y hy).2).symm
    · exact h.idInj
    · exact h.prog
    · exact h.cont
    · exact h.fin
    · exact h.pend
    · exact h.flows
    · exact h.run
    · exact h.runNodup
    · exact fun r hr => Nat.lt_succ_of_lt (h.runB r hr)
    · exact h.asked
    · exact h.flowStarted
    · intro s o ho
      obtain ⟨g1, g2, g3, g4⟩ := h.over s o ho
      refine ⟨g1, fun x hx => ?_, g3, g4⟩
      rcases List.mem_append.mp hx with hx | hx
      · exact g2 x hx
      · simp only [List.mem_singleton] at hx; subst hx
        rintro rfl
        have : o ∈ outcomes st.next st := ho
        rw [hoN] at this; cases this
    · intro b hb
      rcases List.mem_append.mp hb with hb | hb
      · rcases h.begun b hb with ⟨x, hx, e⟩ | e | e
        · exact Or.inl ⟨x, List.mem_append_left _ hx, e⟩
        · exact Or.inr (Or.inl e)
        · exact Or.inr (Or.inr e)
      · simp only [List.mem_singleton] at hb; subst hb
        exact Or.inl ⟨_, List.mem_append_right _ (List.mem_singleton.mpr rfl), rfl, rfl⟩
    · intro b hb
      rcases List.mem_append.mp hb with hb | hb
      · exact Nat.lt_succ_of_lt (h.begunB b hb)
      · simp only [List.mem_singleton] at hb; subst hb; exact Nat.lt_succ_self _
    · exact fun a ha => Nat.lt_succ_of_lt (h.aB a ha)
    · exact fun s hs => Nat.lt_succ_of_lt (h.oB s hs)
  have hcount : ((st.sessions ++ [{ parent, sid := st.next, status := .ongoing }] : List Scoped).filter
      (fun p => p.sid == st.next || p.parent == st.next)).length ≤ 1 := by
    rw [List.filter_append]
    have : st.sessions.filter (fun p => p.sid == st.next || p.parent == st.next) = [] := by
      rw [List.filter_eq_nil_iff]
      intro x hx e
      simp only [Bool.or_eq_true, beq_iff_eq] at e
      rcases e with e | e
      · exact Nat.ne_of_lt (h.bS x hx).1 e
      · exact Nat.ne_of_lt (h.bS x hx).2 e
    rw [this]
    simp
  have hinit : ∀ (st : State α κ) i, Quiet cfg none st → Quiet cfg none { st with initial := i } :=
    fun st i h => h.congr rfl rfl rfl rfl (Nat.le_refl _) rfl rfl rfl rfl rfl rfl rfl (fun _ => rfl)
  unfold beginScope
  dsimp only
  split
  · exact cancelOne_quiet cfg hn _ h1 _ _ _ hcount
  · exact validate_quiet cfg hn _ h1 _ _ _
  · exact h1
  · split
    · refine cancelOne_quiet cfg hn _ (hinit _ _ h1) _ _ _ hcount
    · exact hinit _ _ (validate_quiet cfg hn _ h1 _ _ _)

/-- The session of an entry with given cleanup state. -/
theorem Quiet.entry_eq {cfg : Cfg} {ex : Option Ent} {st : State α κ} (h : Quiet cfg ex st)
    {a b : Awaiting κ} (ha : a ∈ st.awaiting) (hb : b ∈ st.awaiting) (e : a.sid = b.sid) : a = b :=
  eq_of_nodup_map _ h.aNodup ha hb e

theorem cleaned_quiet (cfg : Cfg) (st : State α κ) (h : Quiet cfg none st) (c : Cleanup)
    (hc : c ∈ st.pending) :
    Quiet cfg none (State.register { st with pending := st.pending.erase c } c) := by
  obtain ⟨a, ha, hf, he⟩ := h.pend c hc
  have hcf : c ∈ st.pending.filter (fun c => c.session = a.sid) := by
    simp [List.mem_filter, hc, he]
  rcases h.prog a ha hf with ⟨_, _, e⟩ | ⟨ns, hne, hnd, h1, h2, h3⟩
  · rw [e] at hcf; cases hcf
  rw [h3] at hcf
  obtain ⟨n, hn, rfl⟩ := List.mem_map.mp hcf
  have hcid : (mkClean cfg a n).id = a.cleanup.id := rfl
  have hrest : ns.filter (· ≠ n) = ns.erase n := by
    rw [List.Nodup.erase_eq_filter hnd]
    apply List.filter_congr
    intro x _
    by_cases e : x = n <;> simp [e, bne]
  have hpend : (st.pending.erase (mkClean cfg a n)).filter (fun c => c.session = a.sid) =
      (ns.erase n).map (mkClean cfg a) := by
    have key : ∀ l : List Cleanup, (l.erase (mkClean cfg a n)).filter (fun c => c.session = a.sid) =
        (l.filter (fun c => c.session = a.sid)).erase (mkClean cfg a n) := by
      intro l
      rw [List.erase_filter]
    rw [key, h3]
    have hinj : ∀ l : List Ent, (l.map (mkClean cfg a)).erase (mkClean cfg a n) =
        (l.erase n).map (mkClean cfg a) := by
      intro l
      induction l with
      | nil => rfl
      | cons m l ih =>
        rw [List.map_cons, List.erase_cons, List.erase_cons]
        by_cases e : m = n
        · subst e; simp
        · have e' : mkClean cfg a m ≠ mkClean cfg a n := fun q => e (congrArg Cleanup.node q)
          rw [if_neg (by simpa using e'), if_neg (by simpa using e), ih]; rfl
    exact hinj ns
  have hpendF : ∀ s, s ≠ a.sid → (st.pending.erase (mkClean cfg a n)).filter (fun c => c.session = s) =
      st.pending.filter (fun c => c.session = s) := by
    intro s hs
    rw [← List.erase_filter, List.erase_of_not_mem]
    intro hm
    have := (List.mem_filter.mp hm).2
    simp only [decide_eq_true_eq] at this
    exact hs this.symm
  have build : ∀ (ct : Ent → Option (List Ent)) (fin : List Cleanup),
      (∀ i, i ≠ a.cleanup.id → ct i = st.contents i) →
      (∀ s, s ≠ a.sid → fin.filter (fun c => c.session = s) = st.finished.filter (fun c => c.session = s)) →
      (∀ d ∈ fin, d ∈ st.finished ∨ d.session = a.sid) →
      Prog cfg a { st with pending := st.pending.erase (mkClean cfg a n), contents := ct, finished := fin } →
      Quiet cfg none { st with pending := st.pending.erase (mkClean cfg a n), contents := ct, finished := fin } := by
    intro ct fin g1 g2 g3 g4
    constructor
    · exact h.nodup
    · exact h.aNodup
    · exact h.noEarly
    · exact h.status
    · exact h.alive
    · exact h.sExit
    · exact h.aExit
    · exact h.bS
    · exact h.started
    · exact h.begunA
    · exact h.idle
    · exact h.ids
    · exact h.idInj
    · intro b hb hfb
      by_cases e : b.sid = a.sid
      · rw [h.entry_eq hb ha e]; exact g4
      · have := h.prog b hb hfb
        unfold Prog at this ⊢
        dsimp only
        rw [g1 _ (fun q => e (h.idInj b hb a ha hfb hf q)), g2 _ e, hpendF _ e]
        exact this
    · intro i m hi
      by_cases e : i = a.cleanup.id
      · exact ⟨a, ha, hf, e.symm⟩
      · dsimp only at hi
        rw [g1 i e] at hi; exact h.cont i m hi
    · intro d hd
      rcases g3 d hd with hd | hd
      · exact h.fin d hd
      · exact ⟨a, ha, hf, hd.symm⟩
    · intro d hd; exact h.pend d (List.mem_of_mem_erase hd)
    · exact h.flows
    · exact h.run
    · exact h.runNodup
    · exact h.runB
    · exact h.asked
    · exact h.flowStarted
    · exact h.over
    · exact h.begun
    · exact h.begunB
    · exact h.aB
    · exact h.oB
  unfold State.register
  dsimp only
  rw [hcid, h1]
  dsimp only
  have hnn : (mkClean cfg a n).node = n := rfl
  rw [hnn, hrest]
  split
  · rename_i hemp
    have hemp' : ns.erase n = [] := by simpa using hemp
    refine build _ _ (fun i hi => by simp [hi]) ?_ ?_ ?_
    · intro s hs
      rw [List.filter_cons_of_neg (fun q => hs (of_decide_eq_true q).symm)]
    · intro d hd
      rcases List.mem_cons.mp hd with rfl | hd
      · exact Or.inr rfl
      · exact Or.inl hd
    · refine Or.inl ⟨by simp, ⟨n, ?_⟩, ?_⟩
      · show List.filter _ (_ :: _) = _
        rw [List.filter_cons_of_pos (by simp [mkClean]), h2]
      · show List.filter _ _ = _
        rw [hpend, hemp']; rfl
  · rename_i hemp
    have hemp' : ns.erase n ≠ [] := by simpa using hemp
    refine build _ _ (fun i hi => by simp [hi]) (fun _ _ => rfl) (fun d hd => Or.inl hd) ?_
    exact Or.inr ⟨ns.erase n, hemp', hnd.erase _, by simp, h2, hpend⟩

end Verif.Scope
