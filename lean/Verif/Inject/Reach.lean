import Verif.Inject.Lemmas

/- Helper lemmas: what stands behind the entries of the injection storage. -/
namespace Verif.Inject

/-- More bookkeeping of the storage and of the tasks that were told to clean up. -/
structure Inv2 (st : State) : Prop extends Inv st where
  tfL : ∀ i, i ∈ st.list → i.task = i.finish + 1 ∧ i.task < st.next
  ndL : (st.list.map (·.finish)).Nodup
  askLt : ∀ a, a ∈ st.asked → a.2 < st.next
  ask : ∀ a, a ∈ st.asked → ∀ i, i ∈ st.list → i.task ≠ a.2

theorem inv2_init : Inv2 {} := { inv_init with
  tfL := by simp
  ndL := by simp
  askLt := by simp
  ask := by simp }

theorem Inv2.less {st st' : State} (i : Inv2 st) (k : Inv st') (hl : List.Sublist st'.list st.list)
    (hn : st'.next = st.next) (ha : st'.asked = st.asked) : Inv2 st' :=
  { k with
    tfL := fun j h => hn ▸ i.tfL j (hl.subset h)
    ndL := i.ndL.sublist (hl.map _)
    askLt := by rw [ha, hn]; exact i.askLt
    ask := by rw [ha]; exact fun a h j hj => i.ask a h j (hl.subset hj) }

theorem cleanup_asked (st : State) (session id : Nat) (now : List Nat) (a : Nat × Nat)
    (h : a ∈ (st.cleanup session id now).asked) :
    a ∈ st.asked ∨ ∃ i, i ∈ st.list ∧ i.session = session ∧ i.task = a.2 := by
  rw [cleanup_eq] at h
  split at h
  · exact .inl h
  · rw [(same_fold id _ _).asked] at h
    simp only [begun, List.mem_append, List.mem_map, List.mem_filter, decide_eq_true_eq] at h
    rcases h with h | ⟨n, ⟨i, ⟨hi, hs⟩, rfl⟩, rfl⟩
    · exact .inl h
    · exact .inr ⟨i, hi, hs, rfl⟩

theorem step_inv2 {st : State} (i : Inv2 st) (op : Op) : Inv2 (st.step op) := by
  have k := step_inv i.toInv op
  cases op with
  | input s r =>
    simp only [State.step] at k ⊢
    split at k
    · rw [if_pos (by assumption)]; exact i
    · rw [if_neg (by assumption)]; exact i.less k (List.Sublist.refl _) rfl rfl
  | execute =>
    change Inv st.execute at k
    show Inv2 st.execute
    unfold State.execute at k ⊢
    split at k
    · exact i
    · refine { k with tfL := ?_, ndL := ?_, askLt := ?_, ask := ?_ }
      · intro j hj
        rcases List.mem_append.1 hj with hj | hj
        · have := i.tfL j hj; exact ⟨this.1, by show j.task < st.next + 2; omega⟩
        · simp at hj; subst hj; exact ⟨rfl, by show st.next + 1 < st.next + 2; omega⟩
      · simp only [List.map_append, List.map_cons, List.map_nil]
        apply nodup_snoc i.ndL
        intro hm
        obtain ⟨w, hw, e⟩ := List.mem_map.1 hm
        have := i.ltL w hw; omega
      · intro a ha; have := i.askLt a ha; show a.2 < st.next + 2; omega
      · intro a ha j hj
        rcases List.mem_append.1 hj with hj | hj
        · exact i.ask a ha j hj
        · simp at hj; subst hj
          have := i.askLt a ha
          show st.next + 1 ≠ a.2
          omega
  | respond t d =>
    change Inv (st.respond t d) at k
    show Inv2 (st.respond t d)
    rcases respond_cases st t d with ⟨_, e⟩ | ⟨w, hw, ht, ⟨_, e⟩ | ⟨_, e⟩⟩ <;> rw [e] at k ⊢ <;>
      exact i.less k (List.Sublist.refl _) rfl rfl
  | dispose t => exact i.less k (List.Sublist.refl _) rfl rfl
  | finish f =>
    change Inv (st.finish f) at k
    show Inv2 (st.finish f)
    rcases finish_cases st f with e | ⟨s', d, hq, ⟨hno, e⟩ | ⟨_, e⟩ | ⟨_, e⟩⟩ <;> rw [e] at k ⊢
    · exact i
    · exact i.less k (List.Sublist.refl _) rfl rfl
    · exact i.less k List.filter_sublist rfl rfl
    · exact i.less k List.filter_sublist rfl rfl
  | cleanup s id now =>
    obtain ⟨_, e2, _, e4, _, _, _⟩ := cleanup_parts st s id now
    have hsub : List.Sublist (st.cleanup s id now).list st.list := e2 ▸ List.filter_sublist
    refine { k with tfL := ?_, ndL := ?_, askLt := ?_, ask := ?_ }
    · intro j hj
      show _ ∧ j.task < (st.cleanup s id now).next
      rw [e4]; exact i.tfL j (hsub.subset hj)
    · exact i.ndL.sublist (hsub.map _)
    · intro a ha
      show a.2 < (st.cleanup s id now).next
      rw [e4]
      rcases cleanup_asked st s id now a ha with ha | ⟨j, hj, _, e⟩
      · exact i.askLt a ha
      · rw [← e]; exact (i.tfL j hj).2
    · intro a ha j hj
      have hj' : j ∈ st.list := hsub.subset hj
      rcases cleanup_asked st s id now a ha with ha | ⟨j', hj2, hs, e⟩
      · exact i.ask a ha j hj'
      · intro he
        have h1 := (i.tfL j hj').1
        have h2 := (i.tfL j' hj2).1
        have := nodup_key i.ndL hj' hj2 (by omega)
        subst this
        change j ∈ (st.cleanup s id now).list at hj
        rw [e2, List.mem_filter] at hj
        simp [hs] at hj
  | cleaned id t =>
    have h := same_cleaned st id t
    exact i.less k (h.list ▸ List.Sublist.refl _) h.next h.asked
  | finalize =>
    obtain ⟨_, e2, _, e4, _, _, _⟩ := finalize_parts st
    refine i.less k (e2 ▸ List.Sublist.refl _) e4 ?_
    show st.finalize.asked = st.asked
    unfold State.finalize
    split
    · rfl
    · simp only; split <;> rfl
  | stop s => exact i.less k (List.Sublist.refl _) rfl rfl

/-- Behind an entry: a service at work, or an answer on its way. -/
def Backed (st : State) (i : Injected) : Prop :=
  (∃ w, w ∈ st.working ∧ w.finish = i.finish ∧ w.session = i.session) ∨
    ∃ q, q ∈ st.waiting ∧ q.1 = i.finish ∧ q.2.1 = i.session

theorem cleaned_working (st : State) (id t : Nat) (w : Work) (hw : w ∈ st.working)
    (h : (id, t) ∈ st.asked → w.task ≠ t) : w ∈ (st.cleaned id t).working := by
  unfold State.cleaned
  split
  · next ha =>
    have : ∀ s : State, (s.notifyCleaned id t).working = s.working := by
      intro s
      unfold State.notifyCleaned
      split
      · rfl
      · simp only; split <;> rfl
    rw [this, List.mem_filter]
    exact ⟨hw, by simpa using h ha⟩
  · exact hw

theorem fold_working (id : Nat) (ns : List Nat) : ∀ (st : State) (w : Work), w ∈ st.working →
    (∀ n, n ∈ ns → w.task ≠ n) → w ∈ (ns.foldl (fun st n => st.cleaned id n) st).working := by
  induction ns with
  | nil => intro st w hw _; exact hw
  | cons n ns ih =>
    intro st w hw h
    exact ih _ w (cleaned_working st id n w hw fun _ => h n (by simp)) fun m hm => h m (by simp [hm])

theorem step_backed {st : State} (i : Inv2 st) {s : Nat} (op : Op)
    (hd : ∀ t, op ≠ .dispose t) (hc : ∀ id now, op ≠ .cleanup s id now) (hact : s ∉ st.inactive)
    (hb : ∀ j, j ∈ st.list → j.session = s → Backed st j) :
    ∀ j, j ∈ (st.step op).list → j.session = s → Backed (st.step op) j := by
  intro j hj hs
  have keepW : ∀ st' : State, j ∈ st.list → (∀ w, w ∈ st.working → w.finish = j.finish →
      w ∈ st'.working) → (∀ q, q ∈ st.waiting → q.1 = j.finish → q ∈ st'.waiting) →
      Backed st' j := by
    intro st' hj' h1 h2
    rcases hb j hj' hs with ⟨w, hw, h3, h4⟩ | ⟨q, hq, h3, h4⟩
    · exact .inl ⟨w, h1 w hw h3, h3, h4⟩
    · exact .inr ⟨q, h2 q hq h3, h3, h4⟩
  cases op with
  | input s' r =>
    simp only [State.step] at hj ⊢
    split at hj
    · next ha => rw [if_pos ha]; exact hb j hj hs
    · next ha => rw [if_neg ha]; exact hb j hj hs
  | execute =>
    change j ∈ st.execute.list at hj
    show Backed st.execute j
    unfold State.execute at hj ⊢
    split at hj
    · exact hb j hj hs
    · rcases List.mem_append.1 hj with hj | hj
      · exact keepW _ hj (fun w hw _ => by simp [hw]) fun q hq _ => hq
      · simp at hj; subst hj
        refine .inl ⟨⟨st.next + 1, st.next, _, _⟩, List.mem_append.2 (.inr (List.mem_singleton.2 rfl)),
          rfl, rfl⟩
  | respond t d =>
    change j ∈ (st.respond t d).list at hj
    show Backed (st.respond t d) j
    rcases respond_cases st t d with ⟨_, e⟩ | ⟨w, hw, ht, ⟨ha, e⟩ | ⟨ha, e⟩⟩ <;> rw [e] at hj ⊢
    · exact hb j hj hs
    · refine keepW _ hj ?_ (fun q hq _ => hq)
      intro v hv hf
      rw [List.mem_filter]
      refine ⟨hv, ?_⟩
      simp only [ne_eq, decide_not, Bool.not_eq_true', decide_eq_false_iff_not]
      intro hvt
      have h1 := i.tf v hv
      have h2 := i.tf w hw
      have := nodup_key i.ndW hv hw (by omega)
      subst this
      rcases hb j hj hs with ⟨u, hu, h3, h4⟩ | ⟨q, hq, h3, h4⟩
      · have := nodup_key i.ndW hu hv (h3.trans hf.symm)
        subst this
        rw [h4, hs] at ha
        exact hact ha
      · exact i.dis v hv q hq (hf.trans h3.symm)
    · by_cases hf : w.finish = j.finish
      · rcases hb j hj hs with ⟨u, hu, h3, h4⟩ | ⟨q, hq, h3, h4⟩
        · have := nodup_key i.ndW hu hw (h3.trans hf.symm)
          subst this
          exact .inr ⟨(u.finish, u.session, d), by simp, h3, h4⟩
        · exact absurd (hf.trans h3.symm) (i.dis w hw q hq)
      · refine keepW _ hj ?_ (fun q hq _ => by simp [hq])
        intro v hv hvf
        rw [List.mem_filter]
        refine ⟨hv, ?_⟩
        simp only [ne_eq, decide_not, Bool.not_eq_true', decide_eq_false_iff_not]
        intro hvt
        have h1 := i.tf v hv
        have h2 := i.tf w hw
        exact hf (by omega)
  | dispose t => exact absurd rfl (hd t)
  | finish f =>
    change j ∈ (st.finish f).list at hj
    show Backed (st.finish f) j
    have key : j ∈ st.list → j.finish ≠ f → ∀ st' : State, st'.working = st.working →
        st'.waiting = st.waiting.filter (fun w => w.1 ≠ f) → Backed st' j := by
      intro hj' hne st' e1 e2
      refine keepW st' hj' (fun w hw _ => e1 ▸ hw) ?_
      intro q hq hqf
      rw [e2, List.mem_filter]
      exact ⟨hq, by rw [hqf]; simpa using hne⟩
    rcases finish_cases st f with e | ⟨s', d, hq, ⟨hno, e⟩ | ⟨_, e⟩ | ⟨_, e⟩⟩ <;> rw [e] at hj ⊢
    · exact hb j hj hs
    · exact key hj (hno j hj) _ rfl rfl
    · rw [List.mem_filter] at hj
      exact key hj.1 (by simpa using hj.2) _ rfl rfl
    · rw [List.mem_filter] at hj
      exact key hj.1 (by simpa using hj.2) _ rfl rfl
  | cleanup s' id now =>
    change j ∈ (st.cleanup s' id now).list at hj
    show Backed (st.cleanup s' id now) j
    obtain ⟨_, e2, e3, _, _, _, _⟩ := cleanup_parts st s' id now
    rw [e2, List.mem_filter] at hj
    refine keepW _ hj.1 ?_ (fun q hq _ => by rw [e3]; exact hq)
    intro w hw hf
    rw [cleanup_eq]
    split
    · exact hw
    · apply fold_working
      · exact hw
      · intro n hn
        rw [List.mem_filter, List.mem_map] at hn
        obtain ⟨⟨j', hj', hn'⟩, _⟩ := hn
        rw [List.mem_filter] at hj'
        intro he
        have h1 := i.tf w hw
        have h2 := (i.tfL j' hj'.1).1
        have := nodup_key i.ndL hj.1 hj'.1 (by omega)
        subst this
        have h3 := hj'.2
        have h4 := hj.2
        simp only [decide_eq_true_eq, ne_eq, decide_not, Bool.not_eq_true',
          decide_eq_false_iff_not] at h3 h4
        exact h4 h3
  | cleaned id t =>
    change j ∈ (st.cleaned id t).list at hj
    have h := same_cleaned st id t
    rw [h.list] at hj
    refine keepW _ hj ?_ (fun q hq _ => by
      show q ∈ (st.cleaned id t).waiting; rw [h.waiting]; exact hq)
    intro w hw hf
    apply cleaned_working st id t w hw
    intro ha he
    apply i.ask _ ha j hj
    have h1 := i.tf w hw
    have h2 := (i.tfL j hj).1
    show j.task = t
    omega
  | finalize =>
    obtain ⟨_, e2, e3, _, _, _, e7⟩ := finalize_parts st
    change j ∈ st.finalize.list at hj
    rw [e2] at hj
    exact keepW _ hj (fun w hw _ => by show w ∈ st.finalize.working; rw [e7]; exact hw)
      (fun q hq _ => by show q ∈ st.finalize.waiting; rw [e3]; exact hq)
  | stop s' => exact hb j hj hs

/-- An entry whose service is out of the game. -/
structure Orphan (st : State) (j : Injected) : Prop where
  mem : j ∈ st.list
  work : ∀ w, w ∈ st.working → w.finish ≠ j.finish
  wait : ∀ q, q ∈ st.waiting → q.1 ≠ j.finish

theorem step_orphan {st : State} (i : Inv2 st) {j : Injected} (o : Orphan st j) (op : Op)
    (hc : ∀ id now, op ≠ .cleanup j.session id now) : Orphan (st.step op) j := by
  cases op with
  | input s' r =>
    simp only [State.step]
    split
    · exact o
    · exact ⟨o.mem, o.work, o.wait⟩
  | execute =>
    show Orphan st.execute j
    unfold State.execute
    split
    · exact o
    · refine ⟨by simp [o.mem], ?_, o.wait⟩
      intro w hw
      rcases List.mem_append.1 hw with hw | hw
      · exact o.work w hw
      · simp at hw; subst hw
        have := i.ltL j o.mem
        show st.next ≠ j.finish
        omega
  | respond t d =>
    show Orphan (st.respond t d) j
    rcases respond_cases st t d with ⟨_, e⟩ | ⟨w, hw, ht, ⟨ha, e⟩ | ⟨ha, e⟩⟩ <;> rw [e]
    · exact o
    · exact ⟨o.mem, fun w hw => o.work w (List.mem_filter.1 hw).1, o.wait⟩
    · refine ⟨o.mem, fun w hw => o.work w (List.mem_filter.1 hw).1, ?_⟩
      intro q hq
      rcases List.mem_append.1 hq with hq | hq
      · exact o.wait q hq
      · simp at hq; subst hq; exact o.work w hw
  | dispose t => exact ⟨o.mem, fun w hw => o.work w (List.mem_filter.1 hw).1, o.wait⟩
  | finish f =>
    show Orphan (st.finish f) j
    rcases finish_cases st f with e | ⟨s', d, hq, ⟨hno, e⟩ | ⟨_, e⟩ | ⟨_, e⟩⟩ <;> rw [e]
    · exact o
    · exact ⟨o.mem, o.work, fun q hq => o.wait q (List.mem_filter.1 hq).1⟩
    all_goals
      have hf := o.wait _ hq
      refine ⟨?_, o.work, fun q hq => o.wait q (List.mem_filter.1 hq).1⟩
      rw [List.mem_filter]
      exact ⟨o.mem, by simpa using fun e => hf e.symm⟩
  | cleanup s' id now =>
    obtain ⟨_, e2, e3, _, _, _, e7⟩ := cleanup_parts st s' id now
    refine ⟨?_, fun w hw => o.work w (e7.subset hw), ?_⟩
    · show j ∈ (st.cleanup s' id now).list
      rw [e2, List.mem_filter]
      refine ⟨o.mem, ?_⟩
      simp only [ne_eq, decide_not, Bool.not_eq_true', decide_eq_false_iff_not]
      intro e
      exact hc id now (by rw [e])
    · intro q hq
      change q ∈ (st.cleanup s' id now).waiting at hq
      rw [e3] at hq
      exact o.wait q hq
  | cleaned id t =>
    have h := same_cleaned st id t
    exact ⟨by show j ∈ (st.cleaned id t).list; rw [h.list]; exact o.mem,
      fun w hw => o.work w (h.working.subset hw), fun q hq => o.wait q (h.waiting ▸ hq)⟩
  | finalize =>
    obtain ⟨_, e2, e3, _, _, _, e7⟩ := finalize_parts st
    refine ⟨by show j ∈ st.finalize.list; rw [e2]; exact o.mem, ?_, ?_⟩
    · intro w hw
      change w ∈ st.finalize.working at hw
      rw [e7] at hw; exact o.work w hw
    · intro q hq
      change q ∈ st.finalize.waiting at hq
      rw [e3] at hq; exact o.wait q hq
  | stop s' => exact ⟨o.mem, o.work, o.wait⟩

theorem run_inv2 (ops : List Op) : Inv2 (run ops) := by
  have gen : ∀ (ops : List Op) (st : State), Inv2 st → Inv2 (ops.foldl State.step st) := by
    intro ops
    induction ops with
    | nil => intro st i; exact i
    | cons op ops ih => intro st i; exact ih _ (step_inv2 i op)
  exact gen ops {} inv2_init

theorem fold_orphan {j : Injected} : ∀ (ops : List Op) (st : State), Inv2 st → Orphan st j →
    (∀ id now, Op.cleanup j.session id now ∉ ops) → Orphan (ops.foldl State.step st) j := by
  intro ops
  induction ops with
  | nil => intro st _ o _; exact o
  | cons op ops ih =>
    intro st i o h
    exact ih _ (step_inv2 i op) (step_orphan i o op fun id now e => h id now (by simp [e]))
      fun id now hm => h id now (by simp [hm])

theorem fold_backed {s : Nat} : ∀ (ops : List Op) (st : State), Inv2 st → Good st s →
    Undisturbed s ops → (∀ t, Op.dispose t ∉ ops) →
    (∀ j, j ∈ st.list → j.session = s → Backed st j) →
    Good (ops.foldl State.step st) s ∧
    ∀ j, j ∈ (ops.foldl State.step st).list → j.session = s →
      Backed (ops.foldl State.step st) j := by
  intro ops
  induction ops with
  | nil => intro st _ g _ _ h; exact ⟨g, h⟩
  | cons op ops ih =>
    intro st i g hu hd h
    have g' := step_good i.toInv g op (fun id now e => hu.1 id now (by simp [e]))
      (fun e => hu.2 (by simp [e]))
    exact ih _ (step_inv2 i op) g' ⟨fun id now hm => hu.1 id now (by simp [hm]),
      fun hm => hu.2 (by simp [hm])⟩ (fun t hm => hd t (by simp [hm]))
      (step_backed i op (fun t e => hd t (by simp [e]))
        (fun id now e => hu.1 id now (by simp [e])) g.active h)

end Verif.Inject
