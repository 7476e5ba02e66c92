import Verif.Scope.Calm2

/-
Cleanup workflows and the end of a session, in runs in which the parent leaves the scope
alone.
-/
set_option linter.unusedSimpArgs false
set_option linter.unusedVariables false
namespace Verif.Scope

variable {α κ : Type}

/-- The entry of a session moves on to its cleanup workflows, or one of them has ended. -/
theorem advance_quiet (cfg : Cfg) (st st' : State α κ) (h : Quiet cfg none st)
    (l1 l2 : List (Awaiting κ)) (a a' : Awaiting κ) (fs : List Ent)
    (hl : st.awaiting = l1 ++ a :: l2) (hl' : st'.awaiting = l1 ++ a' :: l2)
    (e1 : a'.sid = a.sid) (e2 : a'.parent = a.parent) (e3 : a'.status ≠ .earlyCleanup)
    (e5 : a'.flows = some fs)
    (hS : st'.sessions = st.sessions.filter (fun p => p.sid ≠ a.sid))
    (hC : st'.contents = st.contents) (hCa : a.flows = none → st.contents a.cleanup.id = none)
    (hF : st'.finished = st.finished.filter (fun c => c.session ≠ a.sid))
    (hP : st'.pending = st.pending) (hPa : ∀ c ∈ st.pending, c.session ≠ a.sid)
    (hN : st.next ≤ st'.next)
    (hR : ∀ w s, s ≠ a.sid → ((w, s) ∈ st'.running ↔ (w, s) ∈ st.running))
    (hRa : ∀ w, w ∈ fs ↔ (w, a.sid) ∈ st'.running)
    (hRn : (st'.running.map (·.1)).Nodup) (hRb : ∀ r ∈ st'.running, r.1 < st'.next)
    (hT : AllStarted cfg a.sid a'.status.isTerminated st')
    (hTm : ∀ q ∈ st.started, q ∈ st'.started)
    (hAl : st'.alive = st.alive) (hE : st'.exits = st.exits) (hB : st'.begun = st.begun)
    (hO : st'.out = st.out) (hAs : st'.asked = st.asked) :
    Quiet cfg (some a.sid) st' := by
  have ham : a ∈ st.awaiting := by rw [hl]; simp
  have memA : ∀ b ∈ st'.awaiting, b = a' ∨ (b ∈ st.awaiting ∧ b.sid ≠ a.sid) := by
    intro b hb
    have hnd := h.aNodup
    rw [hl, List.map_append, List.map_cons, List.nodup_append] at hnd
    obtain ⟨n1, n2, n3⟩ := hnd
    rw [List.nodup_cons] at n2
    rw [hl'] at hb
    simp only [List.mem_append, List.mem_cons] at hb
    rcases hb with hb | rfl | hb
    · exact Or.inr ⟨by rw [hl]; simp [hb], n3 _ (List.mem_map.mpr ⟨b, hb, rfl⟩) _ (by simp)⟩
    · exact Or.inl rfl
    · refine Or.inr ⟨by rw [hl]; simp [hb], fun e => n2.1 ?_⟩
      rw [← e]; exact List.mem_map.mpr ⟨b, hb, rfl⟩
  have memA' : ∀ b ∈ st.awaiting, b = a ∨ b ∈ st'.awaiting := by
    intro b hb
    rw [hl] at hb
    simp only [List.mem_append, List.mem_cons] at hb
    rcases hb with hb | rfl | hb
    · exact Or.inr (by rw [hl']; simp [hb])
    · exact Or.inl rfl
    · exact Or.inr (by rw [hl']; simp [hb])
  have ha' : a' ∈ st'.awaiting := by rw [hl']; simp
  have memS : ∀ x ∈ st'.sessions, x ∈ st.sessions ∧ x.sid ≠ a.sid := by
    intro x hx
    rw [hS] at hx
    simpa using hx
  have memS' : ∀ x ∈ st.sessions, x.sid ≠ a.sid → x ∈ st'.sessions := by
    intro x hx hne
    rw [hS]; simp [hx, hne]
  have hoc : ∀ s, outcomes s st' = outcomes s st := fun s => by simp only [outcomes, hO]
  have hfl : a'.flows ≠ none := by rw [e5]; simp
  constructor
  · rw [hS]; exact h.nodup.sublist (List.filter_sublist.map _)
  · have := h.aNodup
    rw [hl] at this
    rw [hl']
    simpa [e1] using this
  · intro b hb
    rcases memA b hb with rfl | ⟨hb, _⟩
    · exact e3
    · exact h.noEarly b hb
  · intro x hx; exact h.status x (memS x hx).1
  · intro x hx; rw [hAl]; exact h.alive x (memS x hx).1
  · intro hw x hx; rw [hE]; exact h.sExit hw x (memS x hx).1
  · intro hw b hb
    rw [hE]
    rcases memA b hb with rfl | ⟨hb, _⟩
    · rw [e1]; exact h.aExit hw a ham
    · exact h.aExit hw b hb
  · intro x hx
    exact ⟨Nat.lt_of_lt_of_le (h.bS x (memS x hx).1).1 hN, Nat.lt_of_lt_of_le (h.bS x (memS x hx).1).2 hN⟩
  · intro x hx he
    obtain ⟨b, hb, e⟩ := h.started x (memS x hx).1 he
    rcases memA' b hb with rfl | hb'
    · exact absurd e.symm (memS x hx).2
    · exact ⟨b, hb', e⟩
  · intro b hb hf x hx
    rcases memA b hb with rfl | ⟨hb, _⟩
    · rw [e1]; exact (memS x hx).2
    · exact h.begunA b hb hf x (memS x hx).1
  · intro b hb hf
    rcases memA b hb with rfl | ⟨hb, hne⟩
    · exact absurd hf hfl
    · obtain ⟨x, hx, q1, q2⟩ := h.idle b hb hf
      exact ⟨x, memS' x hx (q1 ▸ hne), q1, q2⟩
  · intro b hb hf
    rcases memA b hb with rfl | ⟨hb, hne⟩
    · exact absurd hf hfl
    · rcases h.ids b hb hf with q | ⟨q1, q2⟩
      · exact Or.inl q
      · exact Or.inr ⟨q1, fun x hx => q2 x (memS x hx).1⟩
  · intro b hb d hd hfb hfd e
    rcases memA b hb with rfl | ⟨hb, _⟩
    · exact absurd hfb hfl
    · rcases memA d hd with rfl | ⟨hd, _⟩
      · exact absurd hfd hfl
      · exact h.idInj b hb d hd hfb hfd e
  · intro b hb hf
    rcases memA b hb with rfl | ⟨hb, hne⟩
    · exact absurd hf hfl
    · have := h.prog b hb hf
      have hff : st'.finished.filter (fun c => c.session = b.sid) =
          st.finished.filter (fun c => c.session = b.sid) := by
        rw [hF, List.filter_filter]
        apply List.filter_congr
        intro c _
        by_cases q : c.session = b.sid
        · simp [q, hne]
        · simp [q]
      unfold Prog at this ⊢
      rw [hff, hP, hC]
      exact this
  · intro i ns hi
    rw [hC] at hi
    obtain ⟨b, hb, hf, q⟩ := h.cont i ns hi
    rcases memA' b hb with rfl | hb'
    · rw [← q, hCa hf] at hi; cases hi
    · exact ⟨b, hb', hf, q⟩
  · intro c hc
    rw [hF] at hc
    simp only [List.mem_filter, ne_eq, decide_not, Bool.not_eq_true', decide_eq_false_iff_not] at hc
    obtain ⟨b, hb, hf, q⟩ := h.fin c hc.1
    rcases memA' b hb with rfl | hb'
    · exact absurd q.symm hc.2
    · exact ⟨b, hb', hf, q⟩
  · intro c hc
    rw [hP] at hc
    obtain ⟨b, hb, hf, q⟩ := h.pend c hc
    rcases memA' b hb with rfl | hb'
    · exact absurd q.symm (hPa c hc)
    · exact ⟨b, hb', hf, q⟩
  · intro b hb f hf
    rcases memA b hb with rfl | ⟨hb, hne⟩
    · have hff : fs = f := Option.some.inj (e5.symm.trans hf)
      rw [e1, ← hff]
      exact ⟨fun q => absurd rfl q, hRa⟩
    · obtain ⟨q1, q2⟩ := h.flows b hb f hf
      exact ⟨fun _ => q1 (by simp), fun w => by rw [q2 w, hR w _ hne]⟩
  · intro r hr
    by_cases q : r.2 = a.sid
    · exact ⟨a', ha', by rw [e1, q], hfl⟩
    · obtain ⟨b, hb, q1, q2⟩ := h.run r ((hR r.1 r.2 q).mp hr)
      rcases memA' b hb with rfl | hb'
      · exact absurd q1.symm q
      · exact ⟨b, hb', q1, q2⟩
  · exact hRn
  · exact hRb
  · intro b hb
    unfold AllAsked
    rw [hAs]
    rcases memA b hb with rfl | ⟨hb, _⟩
    · rw [e1]; exact h.asked a ham
    · exact h.asked b hb
  · intro b hb hf
    rcases memA b hb with rfl | ⟨hb, _⟩
    · rw [e1]; exact hT
    · exact fun f q => hTm _ (h.flowStarted b hb hf f q)
  · intro s o ho
    rw [hoc] at ho
    obtain ⟨g1, g2, g3, g4⟩ := h.over s o ho
    refine ⟨?_, fun x hx => g2 x (memS x hx).1, ?_, fun f q => hTm _ (g4 f q)⟩
    · intro b hb
      rcases memA b hb with rfl | ⟨hb, _⟩
      · rw [e1]; exact g1 a ham
      · exact g1 b hb
    · unfold AllAsked; rw [hAs]; exact g3
  · intro b hb
    rw [hB] at hb
    rw [hoc]
    rcases h.begun b hb with ⟨x, hx, q1, q2⟩ | ⟨d, hd, q1, q2⟩ | q
    · by_cases e : x.sid = a.sid
      · -- the session has moved into its entry
        cases hf : a.flows with
        | none =>
          obtain ⟨y, hy, f1, f2, _⟩ := h.idle a ham hf
          have := eq_of_nodup_map _ h.nodup hy hx (f1.trans e.symm)
          subst this
          exact Or.inr (Or.inl ⟨a', ha', by rw [e1, ← q1, e], by rw [e2, ← q2, f2]⟩)
        | some fs' => exact absurd e (h.begunA a ham (by rw [hf]; simp) x hx)
      · exact Or.inl ⟨x, memS' x hx e, q1, q2⟩
    · rcases memA' d hd with rfl | hd'
      · exact Or.inr (Or.inl ⟨a', ha', e1.trans q1, e2.trans q2⟩)
      · exact Or.inr (Or.inl ⟨d, hd', q1, q2⟩)
    · exact Or.inr (Or.inr q)
  · intro b hb
    rw [hB] at hb
    exact Nat.lt_of_lt_of_le (h.begunB b hb) hN
  · intro b hb
    rcases memA b hb with rfl | ⟨hb, _⟩
    · rw [e1]; exact Nat.lt_of_lt_of_le (h.aB a ham) hN
    · exact Nat.lt_of_lt_of_le (h.aB b hb) hN
  · intro s hs
    rw [hoc] at hs
    exact Nat.lt_of_lt_of_le (h.oB s hs) hN

/-- The exemption is not needed when there is a cleanup workflow left. -/
theorem Quiet.weaken {cfg : Cfg} {s : Ent} {st : State α κ} (h : Quiet cfg (some s) st)
    (hne : ∀ a ∈ st.awaiting, a.sid = s → a.flows ≠ some []) : Quiet cfg none st :=
  { h with
    flows := fun a ha fs hf => ⟨fun _ => by
      by_cases e : a.sid = s
      · rintro rfl; exact hne a ha e hf
      · exact (h.flows a ha fs hf).1 (fun q => e (Option.some.inj q)), (h.flows a ha fs hf).2⟩ }

/-- The outcome that an entry will have. -/
def outcomeOf (a : Awaiting κ) (staged : Option α) : List (Out α κ) :=
  match a.status with
  | .earlyCleanup => []
  | .terminated => (staged.map (fun v => Out.respond a.sid a.parent v)).toList
  | .cancelled cause inner => [.cancel a.sid a.parent cause inner]

/-- The end of a session in closed form. -/
theorem finalize_eq (cfg : Cfg) (st : State α κ) (i : Nat) (l1 l2 : List (Awaiting κ)) (a : Awaiting κ)
    (hi : i = l1.length) (hl : st.awaiting = l1 ++ a :: l2)
    (hearly : ∀ b ∈ st.awaiting, b.status ≠ .earlyCleanup)
    (hexit : cfg.workflow = true → (st.exits a.sid).isSome)
    (hstage : a.status = .terminated → (st.staging a.sid).isSome) :
    ∃ st' : State α κ, finalize cfg i st = st' ∧
      (∃ u : List (Out α κ), (∀ s, u.filter (Out.isOutcomeOf s) = []) ∧
        st'.out = st.out ++ outcomeOf a (st.staging a.sid) ++ u) ∧
      st'.awaiting = l1 ++ l2 ∧ st'.sessions = st.sessions ∧ st'.contents = st.contents ∧
      st'.finished = st.finished ∧ st'.pending = st.pending ∧ st'.running = st.running ∧
      st'.started = st.started ∧ st'.asked = st.asked ∧ st'.begun = st.begun ∧ st'.next = st.next ∧
      (∀ j, j ≠ a.sid → st'.exits j = st.exits j) ∧ (∀ j, j ≠ a.sid → st'.alive j = st.alive j) := by
  subst hi
  have hget : st.awaiting[l1.length]? = some a := by rw [hl]; simp
  have herase : st.awaiting.eraseIdx l1.length = l1 ++ l2 := by
    rw [hl, List.eraseIdx_append_of_length_le (Nat.le_refl _)]
    simp
  have hparent : ∀ st2 : State α κ, st2.awaiting = l1 ++ l2 → notifyParent a st2 = st2 := by
    intro st2 h2
    have : parentClean a st2 = false := by
      unfold parentClean
      have : (st2.awaiting.filter (fun b => b.cleanup.id = a.cleanup.id)).any
          (fun b => b.status.isEarlyCleanup) = false := by
        rw [List.any_eq_false]
        intro b hb
        have hb := (List.mem_filter.mp hb).1
        rw [h2] at hb
        have : b ∈ st.awaiting := by
          rw [hl]
          rcases List.mem_append.mp hb with hb | hb <;> simp [hb]
        have := hearly b this
        revert this
        cases b.status <;> simp [Finish.isEarlyCleanup]
      simp only [this, Bool.false_and]
    unfold notifyParent
    rw [this]
    simp
  unfold finalize
  rw [hget]
  dsimp only
  cases hs : a.status with
  | earlyCleanup => exact absurd hs (hearly a (by rw [hl]; simp))
  | terminated =>
    obtain ⟨v, hv⟩ := Option.isSome_iff_exists.mp (hstage hs)
    have e1 : endEntry l1.length a st = { st with awaiting := l1 ++ l2 } := by
      unfold endEntry; rw [hs, herase]
    rw [e1, hparent _ rfl]
    have e2 : (cfg.workflow && (st.exits a.sid).isNone) = false := by
      cases hw : cfg.workflow with
      | false => rfl
      | true =>
        have := hexit hw
        cases hx : st.exits a.sid with
        | none => rw [hx] at this; cases this
        | some b => rfl
    refine ⟨_, rfl, ?_⟩
    unfold deliver
    simp only [e2, hs, Finish.isTerminated, if_true, if_false, hv, Bool.false_eq_true]
    unfold leave State.emit
    dsimp only
    cases hb : (st.exits a.sid == some true)
    · refine ⟨⟨[], by simp, by simp [outcomeOf, hs, hv]⟩, rfl, rfl, rfl, rfl, rfl, rfl, rfl, rfl, rfl, rfl, ?_, ?_⟩
      · intro j hj; simp [hj]
      · intro j hj; simp [hj]
    · refine ⟨⟨[.unblock a.sid], by simp [Out.isOutcomeOf], by simp [outcomeOf, hs, hv]⟩, rfl, rfl, rfl, rfl, rfl, rfl, rfl, rfl, rfl, rfl, ?_, ?_⟩
      · intro j hj; simp [hj]
      · intro j hj; simp [hj]
  | cancelled cause inner =>
    have e1 : endEntry l1.length a st =
        { st with awaiting := l1 ++ l2, out := st.out ++ [.cancel a.sid a.parent cause inner] } := by
      unfold endEntry State.emit; rw [hs, herase]
    rw [e1, hparent _ rfl]
    have e2 : (cfg.workflow && (st.exits a.sid).isNone) = false := by
      cases hw : cfg.workflow with
      | false => rfl
      | true =>
        have := hexit hw
        cases hx : st.exits a.sid with
        | none => rw [hx] at this; cases this
        | some b => rfl
    refine ⟨_, rfl, ?_⟩
    unfold deliver
    simp only [e2, hs, Finish.isTerminated, if_true, if_false, Bool.false_eq_true]
    unfold leave State.emit
    dsimp only
    cases hb : (st.exits a.sid == some true)
    · refine ⟨⟨[], by simp, by simp [outcomeOf, hs]⟩, rfl, rfl, rfl, rfl, rfl, rfl, rfl, rfl, rfl, rfl, ?_, ?_⟩
      · intro j hj; simp [hj]
      · intro j hj; simp [hj]
    · refine ⟨⟨[.unblock a.sid], by simp [Out.isOutcomeOf], by simp [outcomeOf, hs]⟩, rfl, rfl, rfl, rfl, rfl, rfl, rfl, rfl, rfl, rfl, ?_, ?_⟩
      · intro j hj; simp [hj]
      · intro j hj; simp [hj]

theorem outcomeOf_spec (a : Awaiting κ) (staged : Option α) (he : a.status ≠ .earlyCleanup)
    (hs : a.status = .terminated → staged.isSome) :
    ∃ o : Out α κ, outcomeOf a staged = [o] ∧ o.parentOf = some a.parent ∧
      o.isResponse = a.status.isTerminated ∧ ∀ s, o.isOutcomeOf s = decide (a.sid = s) := by
  unfold outcomeOf
  cases h : a.status with
  | earlyCleanup => exact absurd h he
  | terminated =>
    obtain ⟨v, hv⟩ := Option.isSome_iff_exists.mp (hs h)
    exact ⟨.respond a.sid a.parent v, by simp [hv], rfl, rfl, fun s => rfl⟩
  | cancelled cause inner => exact ⟨.cancel a.sid a.parent cause inner, rfl, rfl, rfl, fun s => rfl⟩

theorem finalize_quiet (cfg : Cfg) (st : State α κ) (i : Nat) (l1 l2 : List (Awaiting κ)) (a : Awaiting κ)
    (hi : i = l1.length) (hl : st.awaiting = l1 ++ a :: l2) (hf : a.flows = some [])
    (hstage : a.status = .terminated → (st.staging a.sid).isSome)
    (h : Quiet cfg (some a.sid) st) : Quiet cfg none (finalize cfg i st) := by
  have ham : a ∈ st.awaiting := by rw [hl]; simp
  obtain ⟨st', hst', ⟨u, hu, hout⟩, hA, hS, hC, hF, hP, hR, hT, hAs, hB, hN, hE, hAl⟩ :=
    finalize_eq cfg st i l1 l2 a hi hl h.noEarly (fun hw => h.aExit hw a ham) hstage
  rw [hst']
  obtain ⟨o, ho, hop, hor, hoo⟩ := outcomeOf_spec a (st.staging a.sid) (h.noEarly a ham) hstage
  rw [ho] at hout
  have hoc : ∀ s, outcomes s st' = outcomes s st ++ if a.sid = s then [o] else [] := by
    intro s
    simp only [outcomes, hout, List.filter_append, hu, List.append_nil]
    congr 1
    by_cases e : a.sid = s
    · rw [List.filter_cons_of_pos (by rw [hoo, e]; simp), if_pos e]; rfl
    · rw [List.filter_cons_of_neg (by rw [hoo]; simpa using e), if_neg e]; rfl
  have memA : ∀ b ∈ st'.awaiting, b ∈ st.awaiting ∧ b.sid ≠ a.sid := by
    intro b hb
    have hnd := h.aNodup
    rw [hl, List.map_append, List.map_cons, List.nodup_append] at hnd
    obtain ⟨n1, n2, n3⟩ := hnd
    rw [List.nodup_cons] at n2
    rw [hA] at hb
    rcases List.mem_append.mp hb with hb | hb
    · exact ⟨by rw [hl]; simp [hb], n3 _ (List.mem_map.mpr ⟨b, hb, rfl⟩) _ (by simp)⟩
    · refine ⟨by rw [hl]; simp [hb], fun e => n2.1 ?_⟩
      rw [← e]; exact List.mem_map.mpr ⟨b, hb, rfl⟩
  have memA' : ∀ b ∈ st.awaiting, b = a ∨ b ∈ st'.awaiting := by
    intro b hb
    rw [hl] at hb
    rw [hA]
    simp only [List.mem_append, List.mem_cons] at hb ⊢
    rcases hb with hb | rfl | hb
    · exact Or.inr (Or.inl hb)
    · exact Or.inl rfl
    · exact Or.inr (Or.inr hb)
  have hfl : a.flows ≠ none := by rw [hf]; simp
  have hSne := h.begunA a ham hfl
  constructor
  · rw [hS]; exact h.nodup
  · have := h.aNodup
    rw [hl] at this
    rw [hA]
    exact this.sublist ((List.Sublist.append_left (List.sublist_cons_self _ _) _).map _)
  · exact fun b hb => h.noEarly b (memA b hb).1
  · rw [hS]; exact h.status
  · rw [hS]; intro x hx; rw [hAl _ (hSne x hx)]; exact h.alive x hx
  · rw [hS]; intro hw x hx; rw [hE _ (hSne x hx)]; exact h.sExit hw x hx
  · intro hw b hb
    rw [hE _ (memA b hb).2]; exact h.aExit hw b (memA b hb).1
  · rw [hS, hN]; exact h.bS
  · rw [hS]; intro x hx he
    obtain ⟨b, hb, e⟩ := h.started x hx he
    rcases memA' b hb with rfl | hb'
    · exact absurd e.symm (hSne x hx)
    · exact ⟨b, hb', e⟩
  · rw [hS]; exact fun b hb => h.begunA b (memA b hb).1
  · rw [hS]; exact fun b hb => h.idle b (memA b hb).1
  · rw [hS]; exact fun b hb => h.ids b (memA b hb).1
  · exact fun b hb d hd => h.idInj b (memA b hb).1 d (memA d hd).1
  · intro b hb hfb
    have := h.prog b (memA b hb).1 hfb
    unfold Prog at this ⊢
    rw [hC, hF, hP]; exact this
  · rw [hC]; intro i ns hi
    obtain ⟨b, hb, q1, q2⟩ := h.cont i ns hi
    rcases memA' b hb with rfl | hb'
    · exact absurd q1 hfl
    · exact ⟨b, hb', q1, q2⟩
  · rw [hF]; intro c hc
    obtain ⟨b, hb, q1, q2⟩ := h.fin c hc
    rcases memA' b hb with rfl | hb'
    · exact absurd q1 hfl
    · exact ⟨b, hb', q1, q2⟩
  · rw [hP]; intro c hc
    obtain ⟨b, hb, q1, q2⟩ := h.pend c hc
    rcases memA' b hb with rfl | hb'
    · exact absurd q1 hfl
    · exact ⟨b, hb', q1, q2⟩
  · rw [hR]; intro b hb fs hfs
    obtain ⟨q1, q2⟩ := h.flows b (memA b hb).1 fs hfs
    exact ⟨fun _ => q1 (fun q => (memA b hb).2 (Option.some.inj q)), q2⟩
  · rw [hR]; intro r hr
    obtain ⟨b, hb, q1, q2⟩ := h.run r hr
    rcases memA' b hb with rfl | hb'
    · exfalso
      have := ((h.flows b hb [] hf).2 r.1).mpr (by rw [q1]; exact hr)
      cases this
    · exact ⟨b, hb', q1, q2⟩
  · rw [hR]; exact h.runNodup
  · rw [hR, hN]; exact h.runB
  · unfold AllAsked; rw [hAs]; exact fun b hb => h.asked b (memA b hb).1
  · unfold AllStarted; rw [hT]; exact fun b hb => h.flowStarted b (memA b hb).1
  · intro s o' ho'
    rw [hoc] at ho'
    rw [hS]; unfold AllAsked AllStarted; rw [hAs, hT]
    rcases List.mem_append.mp ho' with ho' | ho'
    · obtain ⟨g1, g2⟩ := h.over s o' ho'
      exact ⟨fun b hb => g1 b (memA b hb).1, g2⟩
    · by_cases e : a.sid = s
      · rw [if_pos e] at ho'
        have heq := List.mem_singleton.mp ho'
        subst e
        subst heq
        refine ⟨fun b hb => (memA b hb).2, hSne, h.asked a ham, ?_⟩
        rw [hor]; exact h.flowStarted a ham hfl
      · rw [if_neg e] at ho'; cases ho'
  · rw [hB, hS]; intro b hb
    rcases h.begun b hb with q | ⟨d, hd, q1, q2⟩ | ⟨o', ho', q⟩
    · exact Or.inl q
    · rcases memA' d hd with rfl | hd'
      · exact Or.inr (Or.inr ⟨o, by rw [hoc, if_pos q1]; simp, by rw [hop, q2]⟩)
      · exact Or.inr (Or.inl ⟨d, hd', q1, q2⟩)
    · exact Or.inr (Or.inr ⟨o', by rw [hoc]; exact List.mem_append_left _ ho', q⟩)
  · rw [hB, hN]; exact h.begunB
  · rw [hN]; exact fun b hb => h.aB b (memA b hb).1
  · intro s hs
    rw [hN]
    rw [hoc] at hs
    by_cases e : a.sid = s
    · rw [← e]; exact h.aB a ham
    · rw [if_neg e, List.append_nil] at hs
      exact h.oB s hs

/-- A terminated entry has its value staged. -/
theorem Safe.staged {st : State α κ} (h : Safe st) {a : Awaiting κ} (ha : a ∈ st.awaiting)
    (ht : a.status = .terminated) : (st.staging a.sid).isSome := by
  rcases h.ent a.sid with e | ⟨b, rest, e, h1, _, h3⟩
  · have : a ∈ ents a.sid st := ents_mem.mpr ⟨ha, rfl⟩
    rw [e] at this; cases this
  · have : a ∈ ents a.sid st := ents_mem.mpr ⟨ha, rfl⟩
    rw [e] at this
    rcases List.mem_cons.mp this with rfl | hr
    · obtain ⟨v, hv, _⟩ := h3 ht
      rw [hv]; rfl
    · rw [h1 a hr] at ht; cases ht

theorem setFlows_split (s : Ent) (fs : List Ent) (l1 l2 : List (Awaiting κ)) (a : Awaiting κ)
    (h1 : ∀ b ∈ l1, b.sid ≠ s) (ha : a.sid = s) :
    setFlows s fs (l1 ++ a :: l2) = l1 ++ { a with flows := some fs } :: l2 := by
  induction l1 with
  | nil => simp [setFlows, ha]
  | cons b l1 ih =>
    simp only [List.cons_append, setFlows]
    rw [if_neg (h1 b (by simp)), ih (fun c hc => h1 c (by simp [hc]))]

theorem findIdx_split {β : Type} (p : β → Bool) (l1 l2 : List β) (a : β)
    (h1 : ∀ b ∈ l1, p b = false) (ha : p a = true) :
    (l1 ++ a :: l2).findIdx? p = some l1.length := by
  induction l1 with
  | nil => simp [List.findIdx?_cons, ha]
  | cons b l1 ih =>
    rw [List.cons_append, List.findIdx?_cons, h1 b (by simp), ih (fun c hc => h1 c (by simp [hc]))]
    simp

theorem Quiet.split {cfg : Cfg} {ex : Option Ent} {st : State α κ} (h : Quiet cfg ex st)
    {a : Awaiting κ} (ha : a ∈ st.awaiting) :
    ∃ l1 l2, st.awaiting = l1 ++ a :: l2 ∧ (∀ b ∈ l1, b.sid ≠ a.sid) ∧ (∀ b ∈ l2, b.sid ≠ a.sid) := by
  obtain ⟨l1, l2, hl⟩ := List.append_of_mem ha
  have hnd := h.aNodup
  rw [hl, List.map_append, List.map_cons, List.nodup_append] at hnd
  obtain ⟨n1, n2, n3⟩ := hnd
  rw [List.nodup_cons] at n2
  refine ⟨l1, l2, hl, fun b hb => n3 _ (List.mem_map.mpr ⟨b, hb, rfl⟩) _ (by simp), fun b hb e => n2.1 ?_⟩
  rw [← e]; exact List.mem_map.mpr ⟨b, hb, rfl⟩

/-- One entry of the list changes, and when it has no cleanup workflow left it is finalized. -/
structure Advance (cfg : Cfg) (st st' : State α κ) : Prop where
  form : st' = st ∨ ∃ (l1 l2 : List (Awaiting κ)) (a a' : Awaiting κ) (fs : List Ent) (st1 : State α κ),
    st.awaiting = l1 ++ a :: l2 ∧ st1.awaiting = l1 ++ a' :: l2 ∧ a'.sid = a.sid ∧
    a'.parent = a.parent ∧ a'.flows = some fs ∧ (∃ k, a'.status = a.status.during k) ∧
    st1.out = st.out ∧ (a'.status = .terminated → (st1.staging a.sid).isSome) ∧
    Quiet cfg (some a.sid) st1 ∧
    st' = if fs = [] then finalize cfg l1.length st1 else st1

theorem Advance.quiet {cfg : Cfg} {st st' : State α κ} (h : Advance cfg st st')
    (hq : Quiet cfg none st) : Quiet cfg none st' := by
  rcases h.form with rfl | ⟨l1, l2, a, a', fs, st1, h1, h2, h3, h4, h5, h6, h7, h8, h9, rfl⟩
  · exact hq
  · split
    · rename_i hnil
      subst hnil
      rw [← h3] at h8 h9
      exact finalize_quiet cfg st1 _ l1 l2 a' rfl h2 h5 h8 h9
    · rename_i hnil
      refine h9.weaken ?_
      intro b hb e
      have : b = a' := h9.entry_eq hb (by rw [h2]; simp) (e.trans h3.symm)
      rw [this, h5]
      simpa using hnil

theorem trigger_advance (cfg : Cfg) (st : State α κ) (h : Quiet cfg none st) (hsafe : Safe st) :
    st.finished = [] ∧ trigger cfg st = st ∨ Advance cfg st (trigger cfg st) := by
  unfold trigger
  split
  · rename_i e; exact Or.inl ⟨e, rfl⟩
  · rename_i c rest hfin
    have hcm : c ∈ st.finished := by rw [hfin]; simp
    obtain ⟨a, ha, hf, he⟩ := h.fin c hcm
    have hcf : c ∈ st.finished.filter (fun c => c.session = a.sid) := by
      simp [List.mem_filter, hcm, he]
    rcases h.prog a ha hf with ⟨h1, ⟨n, h2⟩, h3⟩ | ⟨ns, _, _, _, h2, _⟩
    case inr => rw [h2] at hcf; cases hcf
    have hc : c = mkClean cfg a n := by rw [h2] at hcf; simpa using hcf
    have hrest : rest = st.finished.filter (fun c => c.session ≠ a.sid) := by
      rw [hfin] at h2 ⊢
      rw [List.filter_cons_of_pos (by simp [he])] at h2
      injection h2 with _ h2
      rw [List.filter_cons_of_neg (by simp [he]), List.filter_eq_self.mpr]
      intro d hd
      rw [List.filter_eq_nil_iff] at h2
      have := h2 d hd
      simpa using this
    obtain ⟨l1, l2, hl, n1, n2⟩ := h.split ha
    have hcid : c.id = a.cleanup.id := by rw [hc]; rfl
    have hcont : (fun i => if i = c.id then none else st.contents i) = st.contents := by
      funext i
      by_cases e : i = c.id
      · rw [if_pos e, e, hcid, h1]
      · rw [if_neg e]
    rw [hcont, ← he]
    unfold beginFlows
    dsimp only
    have hfind : st.awaiting.find? (fun b => b.sid = a.sid) = some a := by
      rw [hl, List.find?_append, List.find?_eq_none.mpr (fun b hb => by simpa using n1 b hb)]
      simp
    rw [hfind]
    dsimp only
    generalize hnew : (List.range (flowsToRun cfg a.status.isTerminated).length).map
      (fun k => st.next + k) = new
    have hnewm : ∀ w ∈ new, st.next ≤ w ∧
        w < st.next + (flowsToRun cfg a.status.isTerminated).length := by
      intro w hw
      rw [← hnew] at hw
      obtain ⟨k, hk, rfl⟩ := List.mem_map.mp hw
      have := List.mem_range.mp hk
      exact ⟨Nat.le_add_right _ _, Nat.add_lt_add_left this _⟩
    have hset := setFlows_split a.sid new l1 l2 a n1 rfl
    rw [← hl] at hset
    rw [hset]
    generalize hst1 : ({ st with
        next := st.next + (flowsToRun cfg a.status.isTerminated).length
        sessions := st.sessions.filter (fun p => p.sid ≠ a.sid)
        awaiting := l1 ++ { a with flows := some new } :: l2
        finished := rest
        contents := st.contents
        running := st.running ++ new.map (fun w => (w, a.sid))
        started := st.started ++ (flowsToRun cfg a.status.isTerminated).map (fun f => (a.sid, f)) } :
          State α κ) = st1
    have hnorun : ∀ w, (w, a.sid) ∉ st.running := by
      intro w hw
      obtain ⟨b, hb, q1, q2⟩ := h.run _ hw
      exact q2 (h.entry_eq hb ha q1 ▸ hf)
    have hq : Quiet cfg (some a.sid) st1 := by
      subst hst1
      refine advance_quiet cfg st _ h l1 l2 a { a with flows := some new } new hl rfl rfl rfl
        (h.noEarly a ha) rfl rfl rfl (fun _ => h1) hrest rfl ?_ (Nat.le_add_right _ _) ?_ ?_ ?_ ?_ ?_ ?_
        rfl rfl rfl rfl rfl
      · intro d hd e
        rw [List.filter_eq_nil_iff] at h3
        exact h3 d hd (by simpa using e)
      · intro w s hs
        simp only [List.mem_append, List.mem_map, Prod.mk.injEq]
        constructor
        · rintro (q | ⟨_, _, _, q⟩)
          · exact q
          · exact absurd q.symm hs
        · exact Or.inl
      · intro w
        simp only [List.mem_append, List.mem_map, Prod.mk.injEq]
        constructor
        · intro q; exact Or.inr ⟨w, q, rfl, trivial⟩
        · rintro (q | ⟨_, q, rfl, _⟩)
          · exact absurd q (hnorun w)
          · exact q
      · rw [List.map_append, List.map_map]
        refine List.nodup_append.mpr ⟨h.runNodup, ?_, ?_⟩
        · have : (Prod.fst ∘ fun w => (w, a.sid) : Ent → Ent) = id := rfl
          show (List.map (Prod.fst ∘ fun w => (w, a.sid)) new).Nodup
          rw [this, List.map_id, ← hnew]
          rw [List.nodup_iff_pairwise_ne, List.pairwise_map]
          exact List.Pairwise.imp (fun q => fun e => q (Nat.add_left_cancel e)) List.nodup_range
        · intro x hx y hy
          obtain ⟨r, hr, rfl⟩ := List.mem_map.mp hx
          obtain ⟨w, hw, rfl⟩ := List.mem_map.mp hy
          exact Nat.ne_of_lt (Nat.lt_of_lt_of_le (h.runB r hr) (hnewm w hw).1)
      · intro r hr
        rcases List.mem_append.mp hr with hr | hr
        · exact Nat.lt_of_lt_of_le (h.runB r hr) (Nat.le_add_right _ _)
        · obtain ⟨w, hw, rfl⟩ := List.mem_map.mp hr
          exact (hnewm w hw).2
      · intro f q
        exact List.mem_append_right _ (List.mem_map.mpr ⟨f, q, rfl⟩)
      · intro q hq; exact List.mem_append_left _ hq
    have hA1 : st1.awaiting = l1 ++ { a with flows := some new } :: l2 := by rw [← hst1]
    have hG1 : st1.staging = st.staging := by rw [← hst1]
    unfold checkAwaiting
    have hidx : st1.awaiting.findIdx? (fun b => b.sid = a.sid) = some l1.length := by
      rw [hA1]
      exact findIdx_split _ l1 l2 _ (fun b hb => by simpa using n1 b hb) (by simp)
    have hget : st1.awaiting[l1.length]? = some { a with flows := some new } := by
      rw [hA1]; simp
    rw [hidx]
    dsimp only
    rw [hget]
    dsimp only
    refine Or.inr ⟨Or.inr ⟨l1, l2, a, { a with flows := some new }, new, st1, hl, hA1, rfl, rfl, rfl,
      ⟨none, by cases a.status <;> rfl⟩, by rw [← hst1], ?_, hq, ?_⟩⟩
    · intro ht
      rw [hG1]
      exact hsafe.staged (a := a) ha ht
    · by_cases hnil : new = []
      · rw [if_pos (by rw [hnil]), if_pos hnil]
      · rw [if_neg (by simpa using hnil), if_neg hnil]

theorem trigger_quiet (cfg : Cfg) (st : State α κ) (h : Quiet cfg none st) (hsafe : Safe st) :
    Quiet cfg none (trigger cfg st) := by
  rcases trigger_advance cfg st h hsafe with ⟨_, e⟩ | e
  · rw [e]; exact h
  · exact e.quiet h

theorem flowDone_advance (cfg : Cfg) (st : State α κ) (h : Quiet cfg none st) (hsafe : Safe st)
    (w : Ent) (cause : Option κ) :
    Advance cfg st (deduct cfg w cause
      { st with running := st.running.filter (fun r => r.1 ≠ w) }) := by
  unfold deduct
  dsimp only
  split
  · -- nothing known about it
    rename_i hnone
    have hno : ∀ r ∈ st.running, r.1 ≠ w := by
      rintro r hr rfl
      obtain ⟨b, hb, q1, q2⟩ := h.run r hr
      cases hf : b.flows with
      | none => exact q2 hf
      | some fs =>
        have := ((h.flows b hb fs hf).2 r.1).mpr (by rw [q1]; exact hr)
        have hn := List.findIdx?_eq_none_iff.mp hnone b hb
        rw [hf] at hn
        simp [this] at hn
    have : st.running.filter (fun r => r.1 ≠ w) = st.running := by
      rw [List.filter_eq_self]
      intro r hr
      simpa using hno r hr
    rw [this]
    exact ⟨Or.inl rfl⟩
  · rename_i i hidx
    obtain ⟨hi, hp, _⟩ := List.findIdx?_eq_some_iff_getElem.mp hidx
    have hget : st.awaiting[i]? = some st.awaiting[i] := List.getElem?_eq_getElem hi
    generalize ha0 : st.awaiting[i] = a at hp hget
    rw [hget]
    dsimp only
    obtain ⟨l1, l2, hl, hlen, _, hset⟩ := getElem?_split hget
    have ham : a ∈ st.awaiting := by rw [hl]; simp
    cases hf : a.flows with
    | none => rw [hf] at hp; simp at hp
    | some fs =>
      rw [hf] at hp
      have hw : w ∈ fs := by simpa using hp
      have hrun := ((h.flows a ham fs hf).2 w).mp hw
      rw [hset]
      simp only [Option.getD_some]
      generalize hst1 : ({ st with
          running := st.running.filter (fun r => r.1 ≠ w)
          awaiting := l1 ++ { a with status := a.status.during cause,
                                     flows := some (fs.filter (· ≠ w)) } :: l2 } : State α κ) = st1
      have huniq : ∀ s, (w, s) ∈ st.running → s = a.sid := by
        intro s hs
        exact congrArg Prod.snd (eq_of_nodup_map _ h.runNodup hs hrun rfl)
      have hterm : (a.status.during cause).isTerminated = a.status.isTerminated := by
        cases a.status <;> cases cause <;> rfl
      have hq : Quiet cfg (some a.sid) st1 := by
        subst hst1
        refine advance_quiet cfg st _ h l1 l2 a
          { a with status := a.status.during cause, flows := some (fs.filter (· ≠ w)) }
          (fs.filter (· ≠ w)) hl rfl rfl rfl
          (fun e => h.noEarly a ham ((during_early a.status cause).1.mp e)) rfl ?_ rfl
          (fun q => by rw [hf] at q; cases q) ?_ rfl ?_ (Nat.le_refl _) ?_ ?_ ?_ ?_ ?_ (fun _ q => q)
          rfl rfl rfl rfl rfl
        · show st.sessions = _
          rw [List.filter_eq_self.mpr]
          intro x hx
          simpa using h.begunA a ham (by rw [hf]; simp) x hx
        · show st.finished = _
          rw [List.filter_eq_self.mpr]
          intro c hc
          obtain ⟨b, hb, q1, q2⟩ := h.fin c hc
          simp only [ne_eq, decide_not, Bool.not_eq_true', decide_eq_false_iff_not]
          intro e
          have := h.entry_eq hb ham (q2.trans e)
          rw [this, hf] at q1; cases q1
        · intro c hc e
          obtain ⟨b, hb, q1, q2⟩ := h.pend c hc
          have := h.entry_eq hb ham (q2.trans e)
          rw [this, hf] at q1; cases q1
        · intro w' s hs
          simp only [List.mem_filter, ne_eq, decide_not, Bool.not_eq_true', decide_eq_false_iff_not,
            and_iff_left_iff_imp]
          rintro q rfl
          exact hs (huniq s q)
        · intro w'
          simp only [List.mem_filter, ne_eq, decide_not, Bool.not_eq_true', decide_eq_false_iff_not,
            (h.flows a ham fs hf).2 w']
        · exact h.runNodup.sublist (List.filter_sublist.map _)
        · intro r hr; exact h.runB r (List.mem_filter.mp hr).1
        · show AllStarted cfg a.sid (a.status.during cause).isTerminated _
          rw [hterm]
          exact h.flowStarted a ham (by rw [hf]; simp)
      have hA1 : st1.awaiting = l1 ++
          { a with status := a.status.during cause, flows := some (fs.filter (· ≠ w)) } :: l2 := by rw [← hst1]
      have hG1 : st1.staging = st.staging := by rw [← hst1]
      refine ⟨Or.inr ⟨l1, l2, a,
        { a with status := a.status.during cause, flows := some (fs.filter (· ≠ w)) },
        fs.filter (· ≠ w), st1, hl, hA1, rfl, rfl, rfl, ⟨cause, rfl⟩, by rw [← hst1], ?_, hq, ?_⟩⟩
      · intro ht
        rw [hG1]
        refine hsafe.staged (a := a) ham ?_
        revert ht
        cases a.status <;> cases cause <;> simp [Finish.during]
      · rw [hlen]
        by_cases hnil : fs.filter (· ≠ w) = []
        · rw [if_pos (by rw [hnil]; rfl), if_pos hnil]
        · rw [if_neg (by simpa using hnil), if_neg hnil]

theorem flowDone_quiet (cfg : Cfg) (st : State α κ) (h : Quiet cfg none st) (hsafe : Safe st)
    (w : Ent) (cause : Option κ) :
    Quiet cfg none (deduct cfg w cause
      { st with running := st.running.filter (fun r => r.1 ≠ w) }) :=
  (flowDone_advance cfg st h hsafe w cause).quiet h

theorem step_quiet (cfg : Cfg) (hn : cfg.nodes.Nodup) (st : State α κ) (e : Ev α κ)
    (h : Quiet cfg none st) (hsafe : Safe st) (hc : Calm st e) : Quiet cfg none (step cfg st e) := by
  cases e with
  | spawn => exact h.congr rfl rfl rfl rfl (Nat.le_succ _) rfl rfl rfl rfl rfl rfl rfl (fun _ => rfl)
  | «begin» p bl c u now => exact begin_quiet cfg hn st h p bl c u now hc
  | terminate s v now =>
    simp only [step]
    split
    · exact terminate_quiet cfg hn st h s v now
    · exact h
  | cancel s k now =>
    cases s with
    | none => exact cancelAll_quiet cfg hn k now _ st h hc
    | some s => exact cancelOne_quiet cfg hn st h s k now hc
  | validate s u now => exact validate_quiet cfg hn st h s u now
  | cleanup c now => exact hc.elim
  | cleaned c =>
    simp only [step]
    split
    · rename_i hm; exact cleaned_quiet cfg st h c hm
    · exact h
  | trigger => exact trigger_quiet cfg st h hsafe
  | flowDone w k => exact flowDone_quiet cfg st h hsafe w k
  | despawn p => exact hc.elim

theorem Calm.noLate {st : State α κ} {e : Ev α κ} (h : Calm st e) (cfg : Cfg) :
    NoLateCleanup cfg st e := by
  cases e <;> first | trivial | exact h.elim

theorem run_quiet (cfg : Cfg) (hn : cfg.nodes.Nodup) : ∀ (es : List (Ev α κ)) (st : State α κ),
    Quiet cfg none st → Safe st → Along cfg Calm st es →
      Quiet cfg none (run cfg st es) ∧ Safe (run cfg st es) := by
  intro es
  induction es with
  | nil => intro st h hs _; exact ⟨h, hs⟩
  | cons e es ih =>
    intro st h hs ha
    exact ih _ (step_quiet cfg hn st e h hs ha.1) (step_safe cfg st e hs (ha.1.noLate cfg)) ha.2

end Verif.Scope
