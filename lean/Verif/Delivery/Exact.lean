import Verif.Delivery.Runs

/-
Mutual exclusion: as long as no pre-empting request arrives while the end of a task has
not been processed, each queue has exactly one active request or one pending release for
its `delivering` entry.
-/
namespace Verif.Delivery

set_option linter.unusedSimpArgs false
set_option linter.unusedVariables false

/-- The active requests of a queue. -/
def tasksIn (v : Svc) (k : Option Nat) : List Task :=
  v.tasks.filter fun t => decide (queueOf v.delivery.parallel t.order = some k)

/-- The pending releases of a queue. -/
def unblocksIn (v : Svc) (k : Option Nat) : List (Option Nat) :=
  v.unblocks.filter fun u => decide (lkey v.delivery.parallel u = some k)

/-- What belongs to the `delivering` entry of a queue. -/
def LaneOK (delivering : Option Order) (T : List Task) (U : List (Option Nat)) : Prop :=
  match delivering with
  | none => T = [] ∧ U = []
  | some d => (∃ t, T = [t] ∧ t.order = d ∧ U = []) ∨ (T = [] ∧ ∃ u, U = [u]) ∨ (T = [] ∧ U = [])

def Exact (ex : Option (Option Nat)) (v : Svc) : Prop :=
  ∀ k, if ex = some k then tasksIn v k = [] ∧ unblocksIn v k = []
    else LaneOK (v.delivery.lane k).delivering (tasksIn v k) (unblocksIn v k)

theorem fresh_exact (kind : Kind) (par : Bool) : Exact none (Svc.fresh kind par) := by
  intro k
  simp [Svc.fresh, Delivery.fresh, LaneOK, tasksIn, unblocksIn]

theorem LaneOK.map {d : Option Order} {T : List Task} {U : List (Option Nat)} (h : LaneOK d T U)
    (g : Task → Task) (ho : ∀ t, (g t).order = t.order) : LaneOK d (T.map g) U := by
  unfold LaneOK at h ⊢
  cases d with
  | none => simpa using h
  | some d =>
    rcases h with ⟨t, rfl, ht, hU⟩ | ⟨rfl, hU⟩ | ⟨rfl, hU⟩
    · exact .inl ⟨g t, rfl, by rw [ho]; exact ht, hU⟩
    · exact .inr (.inl ⟨rfl, hU⟩)
    · exact .inr (.inr ⟨rfl, hU⟩)

theorem LaneOK.filter {d : Option Order} {T T' : List Task} {U : List (Option Nat)}
    (h : LaneOK d T U) (hf : ∃ f : Task → Bool, T' = T.filter f) : LaneOK d T' U := by
  obtain ⟨f, rfl⟩ := hf
  unfold LaneOK at h ⊢
  cases d with
  | none =>
    rw [h.1]
    exact ⟨rfl, h.2⟩
  | some d =>
    rcases h with ⟨t, rfl, ht, hU⟩ | ⟨rfl, hU⟩ | ⟨rfl, hU⟩
    · cases hft : f t
      · exact .inr (.inr ⟨by simp [hft], hU⟩)
      · exact .inl ⟨t, by simp [hft], ht, hU⟩
    · exact .inr (.inl ⟨rfl, hU⟩)
    · exact .inr (.inr ⟨rfl, hU⟩)

theorem tasksIn_map (v : Svc) (g : Task → Task) (ho : ∀ t, (g t).order = t.order)
    (k : Option Nat) : tasksIn { v with tasks := v.tasks.map g } k = (tasksIn v k).map g := by
  simp only [tasksIn, List.filter_map]
  congr 1
  apply List.filter_congr
  intro t _
  simp [ho]

theorem Exact.status {v : Svc} (h : Exact none v) (g : Task → Task)
    (ho : ∀ t, (g t).order = t.order) : Exact none { v with tasks := v.tasks.map g } := by
  intro k
  have := h k
  simp only [reduceCtorEq, if_false] at this ⊢
  rw [tasksIn_map v g ho]
  exact this.map g ho

theorem tasksIn_start (v : Svc) (o : Order) (b : Option (Option Nat)) (k : Option Nat) :
    tasksIn (v.start o b) k = tasksIn v k ++
      if queueOf v.delivery.parallel o = some k then
        [{ order := o, blocker := b, status := .running }] else [] := by
  simp only [tasksIn, Svc.start, List.filter_append, List.filter_cons, List.filter_nil]
  by_cases h : queueOf v.delivery.parallel o = some k <;> simp [h] <;> rfl

theorem serveNext_exact (label k : Option Nat) : ∀ (fuel : Nat) (v v' : Svc), Inv (some k) v →
    Exact (some k) v → lkey v.delivery.parallel label = some k → k ∈ v.delivery.keys →
    v.serveNext label fuel = some v' → Exact none v' := by
  intro fuel
  induction fuel with
  | zero => intro v v' _ _ _ _ h; cases h
  | succ fuel ih =>
    intro v v' hinv h hl hk hs
    simp only [Svc.serveNext, popNext_eq hl hk] at hs
    cases hq : (v.delivery.lane k).queue with
    | nil =>
      simp only [popNextImpl, hq, Option.some.injEq] at hs
      subst hs
      intro k'
      have := h k'
      simp only [reduceCtorEq, if_false, set_lane]
      split
      · rename_i he
        subst he
        simp only [if_true] at this
        exact this
      · rename_i hne
        have hne' : ¬ (some k = some k') := fun h => hne (Option.some.inj h).symm
        simp only [hne', if_false] at this
        exact this
    | cons o q =>
      simp only [popNextImpl, hq] at hs
      have ho : o ∈ (v.delivery.lane k).queue := by rw [hq]; exact List.mem_cons_self ..
      have hkey := hinv.qkey k o ho
      by_cases hsev : o.source ∈ v.severed
      · simp only [hsev, if_true] at hs
        -- the invariant after skipping is part of `serveNext_inv`; only these parts matter
        have hrun := hs
        clear hs
        have hx : Exact (some k) { v with
            delivery := v.delivery.set k { delivering := some o, queue := q }
            log := v.log ++ [.skipped o] } := by
          intro k'
          have := h k'
          simp only [set_lane]
          by_cases he : some k = some k'
          · simp only [he, if_true] at this ⊢
            exact this
          · simp only [he, if_false] at this ⊢
            have hne : ¬ k' = k := fun h => he (by rw [h])
            simp only [hne, if_false]
            exact this
        exact ih _ v' (serveNext_skip hinv hk hq ho) hx hl ((mem_set_keys _ _ _ _).mpr (.inl hk))
          hrun
      · simp only [hsev, if_false, Option.some.injEq] at hs
        subst hs
        intro k'
        have := h k'
        simp only [reduceCtorEq, if_false]
        rw [tasksIn_start]
        simp only [set_parallel, hkey]
        by_cases he : k' = k
        · subst he
          simp only [if_true] at this
          simp only [Svc.start, set_lane, if_true]
          refine .inl ⟨{ order := o, blocker := some (o.instr.map Instr.label), status := .running },
            ?_, rfl, this.2⟩
          rw [show tasksIn { v with
            delivery := v.delivery.set k' { delivering := some o, queue := q } } k' = tasksIn v k' from rfl,
            this.1]
          rfl
        · have hne : ¬ (some k = some k') := fun h => he (Option.some.inj h).symm
          simp only [hne, if_false, List.append_nil] at this ⊢
          simp only [Svc.start, set_lane, he, if_false]
          exact this

theorem filter_single {T : List Task} {t : Task} (h : T = [t]) :
    T.filter (fun u => u.order.id != t.order.id) = [] := by
  rw [h]
  simp

theorem release_exact {v v' : Svc} (hinv : Inv none v) (h : Exact none v) {t : Task}
    (ht : t ∈ v.tasks) (r : Rec)
    (hr : r = .responded t.order ∨ r = .stopped t.order ∨ r = .cleaned t.order)
    (hs : v.release t r = some v') : Exact none v' := by
  unfold Svc.release at hs
  have hb := hinv.blk t ht
  have hcomm : ∀ k, tasksIn { v with
      tasks := v.tasks.filter (fun u => u.order.id != t.order.id), log := v.log ++ [r] } k =
      (tasksIn v k).filter (fun u => u.order.id != t.order.id) := by
    intro k
    simp only [tasksIn, List.filter_filter]
    apply List.filter_congr
    intro u _
    exact Bool.and_comm _ _
  have hother : ∀ k, queueOf v.delivery.parallel t.order ≠ some k → tasksIn { v with
      tasks := v.tasks.filter (fun u => u.order.id != t.order.id), log := v.log ++ [r] } k =
      tasksIn v k := by
    intro k hk
    rw [hcomm k, List.filter_eq_self]
    intro u hu
    simp only [bne_iff_ne, ne_eq]
    intro hid
    have hu' := List.mem_filter.mp hu
    have := hinv.task_of_id hu'.1 ht hid
    rw [this] at hu'
    exact hk (of_decide_eq_true hu'.2)
  cases hq : queueOf v.delivery.parallel t.order with
  | none =>
    rw [hq] at hb
    simp only [Option.map_none] at hb
    simp only [hb, Option.some.injEq] at hs
    subst hs
    intro k
    have := h k
    simp only [reduceCtorEq, if_false] at this ⊢
    rw [hother k (by rw [hq]; simp)]
    exact this
  | some k =>
    rw [hq] at hb
    simp only [Option.map_some] at hb
    simp only [hb] at hs
    have hl := lkey_label v.delivery.parallel t.order
    rw [hq] at hl
    have hmem : t ∈ tasksIn v k := List.mem_filter.mpr ⟨ht, by simp [hq]⟩
    have hk := h k
    simp only [reduceCtorEq, if_false] at hk
    have hT : tasksIn v k = [t] ∧ unblocksIn v k = [] ∧
        ∃ d, (v.delivery.lane k).delivering = some d := by
      cases hd : (v.delivery.lane k).delivering with
      | none =>
        rw [hd] at hk
        rw [hk.1] at hmem
        cases hmem
      | some d =>
        rw [hd] at hk
        rcases hk with ⟨u, hT, _, hU⟩ | ⟨hT, _⟩ | ⟨hT, _⟩
        · rw [hT] at hmem
          rw [List.mem_singleton.mp hmem]
          exact ⟨hT, hU, d, rfl⟩
        · rw [hT] at hmem
          cases hmem
        · rw [hT] at hmem
          cases hmem
    have hex : Exact (some k) { v with
        tasks := v.tasks.filter (fun u => u.order.id != t.order.id), log := v.log ++ [r] } := by
      intro k'
      by_cases he : k' = k
      · subst he
        simp only [if_true]
        rw [hcomm k', filter_single hT.1]
        exact ⟨rfl, hT.2.1⟩
      · have hne : ¬ (some k = some k') := fun h => he (Option.some.inj h).symm
        have := h k'
        simp only [reduceCtorEq, hne, if_false] at this ⊢
        rw [hother k' (by rw [hq]; exact hne)]
        exact this
    cases hkind : v.kind
    · simp only [hkind, Option.some.injEq] at hs
      subst hs
      intro k'
      have := hex k'
      have hu : unblocksIn { v with
          tasks := v.tasks.filter (fun u => u.order.id != t.order.id), log := v.log ++ [r]
          unblocks := v.unblocks ++ [t.order.instr.map Instr.label] } k' =
          unblocksIn v k' ++ if k' = k then [t.order.instr.map Instr.label] else [] := by
        simp only [unblocksIn, List.filter_append, List.filter_cons, List.filter_nil, hl]
        by_cases he : k' = k
        · subst he; simp
        · have hne : ¬ k = k' := fun h => he h.symm
          simp [he, hne]
      simp only [reduceCtorEq, if_false]
      rw [hkind] at hu
      rw [hu]
      by_cases he : k' = k
      · subst he
        obtain ⟨d, hd⟩ := hT.2.2
        simp only [if_true] at this ⊢
        rw [hd]
        right; left
        refine ⟨this.1, t.order.instr.map Instr.label, ?_⟩
        rw [hT.2.1]
        rfl
      · have hne : ¬ (some k = some k') := fun h => he (Option.some.inj h).symm
        simp only [hne, he, if_false, List.append_nil] at this ⊢
        exact this
    all_goals
      simp only [hkind] at hs
      refine serveNext_exact _ k _ _ _ ?_ ?_ ?_ ?_ hs
      · have := release_task_inv hinv ht r hr (some k) (by rw [hq]; simp)
        exact hkind ▸ this
      · exact hkind ▸ hex
      · exact hl
      · exact hinv.tkey t ht k hq

theorem Exact.push {v : Svc} (h : Exact none v) {label k : Option Nat} {d : Order}
    (hl : lkey v.delivery.parallel label = some k) (hd : (v.delivery.lane k).delivering = some d)
    (hT : tasksIn v k = []) (hU : unblocksIn v k = []) :
    Exact none { v with unblocks := v.unblocks ++ [label] } := by
  intro k'
  have := h k'
  have hu : unblocksIn { v with unblocks := v.unblocks ++ [label] } k' =
      unblocksIn v k' ++ if k' = k then [label] else [] := by
    simp only [unblocksIn, List.filter_append, List.filter_cons, List.filter_nil, hl]
    by_cases he : k' = k
    · subst he; simp
    · have hne : ¬ k = k' := fun h => he h.symm
      simp [he, hne]
  simp only [reduceCtorEq, if_false] at this ⊢
  rw [hu]
  by_cases he : k' = k
  · subst he
    simp only [if_true]
    rw [hd, hU]
    exact .inr (.inl ⟨hT, label, rfl⟩)
  · simp only [he, if_false, List.append_nil]
    exact this

theorem stop_exact {v v' : Svc} (hinv : Inv none v) (h : Exact none v) (d : Order)
    (label k : Option Nat) (hl : lkey v.delivery.parallel label = some k)
    (hd : (v.delivery.lane k).delivering = some d)
    (hset : v.kind = .workflow ∨ (v.unblocks = [] ∧ ∀ t ∈ v.tasks, t.status ≠ .gone))
    (hs : v.stop d label = some v') : Exact none v' := by
  have hk := h k
  simp only [reduceCtorEq, if_false, hd, LaneOK] at hk
  have hempty : v.unblocks = [] → (∀ t ∈ v.tasks, t.order.id ≠ d.id ∨ t.status = .gone) →
      (∀ t ∈ v.tasks, t.status ≠ .gone) → tasksIn v k = [] ∧ unblocksIn v k = [] := by
    intro hu hno hg
    refine ⟨?_, by simp [unblocksIn, hu]⟩
    rcases hk with ⟨t, hT, htd, _⟩ | ⟨hT, _⟩ | ⟨hT, _⟩
    · have ht : t ∈ v.tasks := (List.mem_filter.mp (by
        show t ∈ tasksIn v k
        rw [hT]
        exact List.mem_singleton.mpr rfl)).1
      rcases hno t ht with hne | hgo
      · exact absurd (by rw [htd]) hne
      · exact absurd hgo (hg t ht)
    · exact hT
    · exact hT
  unfold Svc.stop at hs
  split at hs
  · rename_i hkind
    have hset : v.unblocks = [] ∧ ∀ t ∈ v.tasks, t.status ≠ .gone := by
      rcases hset with hset | hset
      · rw [hkind] at hset; cases hset
      · exact hset
    split at hs
    · cases hs
      refine h.status _ ?_
      intro t
      split <;> rfl
    · rename_i hany
      cases hs
      have := hempty hset.1 (by
        intro t ht
        by_cases hid : t.order.id = d.id
        · by_cases hg : t.status = .gone
          · exact .inr hg
          · exfalso
            apply hany
            rw [List.any_eq_true]
            exact ⟨t, ht, by simp [hid, hg]⟩
        · exact .inl hid) hset.2
      exact h.push hl hd this.1 this.2
  · cases hs
    exact h
  · rename_i hkind
    have hset : v.unblocks = [] ∧ ∀ t ∈ v.tasks, t.status ≠ .gone := by
      rcases hset with hset | hset
      · rw [hkind] at hset; cases hset
      · exact hset
    split at hs
    · rename_i t hf
      exact release_exact hinv h (List.mem_of_find?_eq_some hf) _ (.inr (.inl rfl)) hs
    · rename_i hf
      cases hs
      have := hempty hset.1 (by
        intro t ht
        left
        have := List.find?_eq_none.mp hf t ht
        simpa using this) hset.2
      exact h.push hl hd this.1 this.2

theorem serve_exact {v v' : Svc} (hinv : Inv none v) (h : Exact none v) (source session : Nat)
    (instr : Option Instr)
    (hset : v.kind = .workflow ∨ (Preempts instr → v.unblocks = [] ∧ ∀ t ∈ v.tasks, t.status ≠ .gone))
    (hs : v.serve source session instr = some v') : Exact none v' := by
  unfold Svc.serve at hs
  rcases insertNewOrder_eq v.delivery { id := v.next, source, session, instr } with
    ⟨hq, he⟩ | ⟨k, hq, he⟩
  · simp only [he, Option.some.injEq] at hs
    subst hs
    intro k
    have := h k
    simp only [reduceCtorEq, if_false] at this ⊢
    rw [tasksIn_start]
    simp only [hq, reduceCtorEq, if_false, List.append_nil]
    exact this
  · rcases insertSerialOrder_eq (v.delivery.lane k) { id := v.next, source, session, instr }
      (hinv.idle k) with ⟨hd, hi, hs'⟩ | ⟨d, bad, stop, hd, hs', hstop⟩
    · simp only [he, hs', Option.map_some, Option.some.injEq] at hs
      subst hs
      intro k'
      have := h k'
      simp only [reduceCtorEq, if_false] at this ⊢
      rw [tasksIn_start]
      simp only [set_parallel, hq]
      by_cases hk : k' = k
      · subst hk
        rw [hd] at this
        simp only [LaneOK] at this
        simp only [Svc.start, set_lane, if_true]
        refine .inl ⟨⟨⟨v.next, source, session, instr⟩, some (instr.map Instr.label), .running⟩,
          ?_, rfl, this.2⟩
        refine (congrArg (· ++ _) (?_ : _ = ([] : List Task))).trans (List.nil_append _)
        exact this.1
      · have hne : ¬ (some k = some k') := fun h => hk (Option.some.inj h).symm
        simp only [hne, if_false, List.append_nil]
        simp only [Svc.start, set_lane, hk, if_false]
        exact this
    · simp only [he, hs', Option.map_some] at hs
      have hb : Exact none { v with
          delivery := v.delivery.set k
            { delivering := some d,
              queue := (v.delivery.lane k).queue.filter (fun e => !bad e) ++
                [{ id := v.next, source, session, instr }] }
          next := v.next + 1
          log := v.log ++ [Rec.accepted { id := v.next, source, session, instr }] ++
            ((v.delivery.lane k).queue.filter bad).map .discarded } := by
        intro k'
        have := h k'
        simp only [reduceCtorEq, if_false, set_lane] at this ⊢
        split
        · rename_i hk
          subst hk
          rw [hd] at this
          exact this
        · exact this
      cases stop with
      | none =>
        simp only [Option.some.injEq] at hs
        subst hs
        exact hb
      | some d' =>
        rcases hstop with hstop | ⟨hstop, hpre⟩
        · cases hstop
        cases hstop
        have hib := serve_busy_inv hinv { id := v.next, source, session, instr } d rfl k hq hd bad
        refine stop_exact hib hb d _ k ?_ (by simp) ?_ hs
        · simp only [set_parallel]
          rw [← hq]
          exact lkey_label _ { id := v.next, source, session, instr }
        · rcases hset with hset | hset
          · exact .inl hset
          · exact .inr (hset hpre)

theorem unblock_exact {v v' : Svc} (hinv : Inv none v) (h : Exact none v) (label : Option Nat)
    (rest : List (Option Nat)) (hu : v.unblocks = label :: rest) (fuel : Nat)
    (hs : { v with unblocks := rest }.serveNext label fuel = some v') : Exact none v' := by
  obtain ⟨k, hk, hl⟩ := hinv.ukey label (by rw [hu]; exact List.mem_cons_self ..)
  have hinv' : Inv (some k) { v with unblocks := rest } := by
    refine { hinv with ukey := ?_, live := ?_, cont := ?_, wf := ?_ }
    · intro u hu'
      exact hinv.ukey u (by rw [hu]; exact List.mem_cons_of_mem _ hu')
    · intro hc k' hk' hd
      rcases hinv.live hc k' (by simp) hd with ht | ⟨u, hu', huk⟩
      · exact .inl ht
      · rw [hu] at hu'
        rcases List.mem_cons.mp hu' with rfl | hu'
        · rw [hl] at huk
          exact absurd huk hk'
        · exact .inr ⟨u, hu', huk⟩
    · exact fun hc k' _ d hd => hinv.cont hc k' (by simp) d hd
    · intro hw
      have := hinv.wf hw
      rw [hu] at this
      cases this
  refine serveNext_exact label k fuel _ _ hinv' ?_ hl hk hs
  have hsplit : ∀ k', unblocksIn v k' =
      (if k' = k then [label] else []) ++ unblocksIn { v with unblocks := rest } k' := by
    intro k'
    simp only [unblocksIn, hu, List.filter_cons, hl]
    by_cases he : k' = k
    · subst he; simp
    · have hne : ¬ k = k' := fun h => he h.symm
      simp [he, hne]
  intro k'
  have := h k'
  simp only [reduceCtorEq, if_false] at this
  rw [hsplit k'] at this
  by_cases he : k' = k
  · subst he
    simp only [if_true] at this ⊢
    cases hd : (v.delivery.lane k').delivering with
    | none =>
      rw [hd] at this
      have := this.2
      simp at this
    | some d =>
      rw [hd] at this
      rcases this with ⟨_, _, _, hU⟩ | ⟨hT, u, hU⟩ | ⟨_, hU⟩
      rotate_right
      · simp at hU
      · simp at hU
      · simp only [List.singleton_append, List.cons.injEq] at hU
        exact ⟨hT, hU.2⟩
  · have hne : ¬ (some k = some k') := fun h => he (Option.some.inj h).symm
    simp only [hne, he, if_false, List.nil_append] at this ⊢
    exact this

theorem step_exact {v v' : Svc} (hinv : Inv none v) (h : Exact none v) (e : Ev)
    (hset : v.kind = .workflow ∨ Settled v e) (hs : step v e = some v') : Exact none v' := by
  cases e with
  | arrive source session instr => exact serve_exact hinv h source session instr hset hs
  | finish id =>
    simp only [step] at hs
    split at hs
    · cases hs; exact h
    · rename_i t hf
      exact release_exact hinv h (List.mem_of_find?_eq_some hf) _ (.inl rfl) hs
  | cancelDone id =>
    simp only [step] at hs
    split at hs
    · cases hs; exact h
    · rename_i t hf
      refine release_exact hinv h (List.mem_of_find?_eq_some hf) _ (.inr ?_) hs
      split
      · exact .inl rfl
      · exact .inr rfl
  | unblock =>
    simp only [step] at hs
    split at hs
    · cases hs; exact h
    · rename_i label rest hu
      exact unblock_exact hinv h label rest hu _ hs
  | cancelNow =>
    simp only [step] at hs
    split at hs
    · cases hs; exact h
    · rename_i session rest hc
      cases hs
      have h' : Exact none { v with cancels := rest } := h
      refine h'.status _ ?_
      intro t
      split <;> rfl
  | cleanup source session =>
    simp only [step, Option.some.injEq] at hs
    subst hs
    have h' : Exact none { v with
        delivery := v.delivery.cleanup session
        log := v.log ++ (v.delivery.waitingOf session).map .removed } := h
    unfold Svc.cleanTasks
    split
    · refine h'.status _ ?_
      intro t
      split <;> rfl
    · refine h'.status _ ?_
      intro t
      split <;> rfl
    · intro k
      have hk := h' k
      simp only [reduceCtorEq, if_false] at hk ⊢
      refine LaneOK.filter hk ?_
      exact ⟨fun t => t.order.session != session, by
        simp only [tasksIn, List.filter_filter]
        apply List.filter_congr
        intro u _
        exact Bool.and_comm _ _⟩
  | sever source =>
    simp only [step, Option.some.injEq] at hs
    subst hs
    exact h

theorem serveNext_kind (label : Option Nat) : ∀ (fuel : Nat) (v v' : Svc),
    v.serveNext label fuel = some v' → v'.kind = v.kind := by
  intro fuel
  induction fuel with
  | zero => intro v v' h; cases h
  | succ fuel ih =>
    intro v v' h
    simp only [Svc.serveNext] at h
    split at h
    · cases h
    · cases h; rfl
    · split at h
      · have := ih _ _ h
        exact this
      · cases h; rfl

theorem release_kind {v v' : Svc} {t : Task} {r : Rec} (h : v.release t r = some v') :
    v'.kind = v.kind := by
  unfold Svc.release at h
  split at h
  · cases h; rfl
  · split at h
    · cases h; rfl
    · have := serveNext_kind _ _ _ _ h
      exact this
    · have := serveNext_kind _ _ _ _ h
      exact this

theorem stop_kind {v v' : Svc} {d : Order} {label : Option Nat} (h : v.stop d label = some v') :
    v'.kind = v.kind := by
  unfold Svc.stop at h
  split at h
  · split at h <;> cases h <;> rfl
  · cases h; rfl
  · split at h
    · exact release_kind h
    · cases h; rfl

theorem step_kind {v v' : Svc} {e : Ev} (hs : step v e = some v') : v'.kind = v.kind := by
  cases e with
  | arrive source session instr =>
    simp only [step, Svc.serve] at hs
    split at hs
    · cases hs
    · cases hs; rfl
    · split at hs
      · cases hs; rfl
      · have := stop_kind hs
        exact this
  | finish id =>
    simp only [step] at hs
    split at hs
    · cases hs; rfl
    · exact release_kind hs
  | cancelDone id =>
    simp only [step] at hs
    split at hs
    · cases hs; rfl
    · exact release_kind hs
  | unblock =>
    simp only [step] at hs
    split at hs
    · cases hs; rfl
    · have := serveNext_kind _ _ _ _ hs
      exact this
  | cancelNow =>
    simp only [step] at hs
    split at hs <;> cases hs <;> rfl
  | cleanup source session =>
    simp only [step, Option.some.injEq] at hs
    subst hs
    unfold Svc.cleanTasks
    split <;> rfl
  | sever source => simp only [step, Option.some.injEq] at hs; subst hs; rfl

theorem run_exact (es : List Ev) : ∀ {v v' : Svc}, Inv none v → Exact none v →
    (v.kind = .workflow ∨ Along Settled v es) → run v es = some v' →
    Inv none v' ∧ Exact none v' := by
  induction es with
  | nil => intro v v' hi h _ hs; cases hs; exact ⟨hi, h⟩
  | cons e es ih =>
    intro v v' hi h hset hs
    simp only [run] at hs
    split at hs
    · cases hs
    · rename_i v1 h1
      obtain ⟨v1', h1', hi1, _⟩ := step_inv hi e
      rw [h1] at h1'
      cases h1'
      refine ih hi1 (step_exact hi h e ?_ h1) ?_ hs
      · rcases hset with hw | ha
        · exact .inl hw
        · exact .inr ha.1
      · rcases hset with hw | ha
        · exact .inl (by rw [step_kind h1]; exact hw)
        · exact .inr (ha.2 v1 h1)

end Verif.Delivery
