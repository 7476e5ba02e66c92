import Verif.Continuous.Lemmas

namespace Verif.Continuous

open Verif.Delivery

set_option linter.unusedSimpArgs false
set_option linter.unusedVariables false

theorem responded_map_nil {α : Type} (f : α → Rec) (h : ∀ a o, f a ≠ .responded o) (l : List α) :
    responded (l.map f) = [] := by
  induction l with
  | nil => rfl
  | cons a l ih =>
    rw [responded, List.map_cons, List.filterMap_cons]
    cases hf : f a with
    | responded o => exact absurd hf (h a o)
    | _ => exact ih

theorem started_map_nil {α : Type} (f : α → Rec) (h : ∀ a o, f a ≠ .started o) (l : List α) :
    started (l.map f) = [] := by
  induction l with
  | nil => rfl
  | cons a l ih =>
    rw [started, List.map_cons, List.filterMap_cons]
    cases hf : f a with
    | started o => exact absurd hf (h a o)
    | _ => exact ih

theorem insertSerialOrder_stop {d : Serial} {o : Order} {d' : Serial} {c : List Order}
    {x : Order} {label : Option Nat}
    (h : insertSerialOrder d o = some (d', .queued c (some x) label)) : Preempts o.instr := by
  unfold insertSerialOrder at h
  split at h
  · split at h <;> cases h
  · split at h
    · cases h
    · rename_i inc hi
      split at h
      · rename_i hp
        exact ⟨inc, hi, hp⟩
      · cases h

/-- What an event of Verif/Delivery does to the queue. -/
theorem base_spec {v v' : Svc} (hk : v.kind = .continuous) {e : Delivery.Ev}
    (he : ∀ id, e ≠ .finish id) (hs : Delivery.step v e = some v') :
    responded v'.log = responded v.log ∧
      ∃ kept new, active v' = kept ++ new ∧ started v'.log = started v.log ++ new ∧
        KeptBy e (active v) kept := by
  cases e with
  | finish id => exact absurd rfl (he id)
  | arrive source session instr =>
    simp only [Delivery.step, Svc.serve] at hs
    obtain ⟨o, ho⟩ : ∃ o : Order, o = { id := v.next, source, session, instr } := ⟨_, rfl⟩
    cases hi : insertNewOrder v.delivery { id := v.next, source, session, instr } with
    | none => rw [hi] at hs; cases hs
    | some r =>
      obtain ⟨d, a⟩ := r
      rw [hi] at hs
      rw [← ho] at hs hi
      cases a with
      | immediate b =>
        simp only [Option.some.injEq] at hs
        subst hs
        refine ⟨by simp [Svc.start, responded], active v, [o], ?_, ?_, List.Sublist.refl _, fun _ => rfl⟩
        · simp [Svc.start, active]
        · simp [Svc.start, started]
      | queued cancelled stop label =>
        have hr : responded (v.log ++ [Rec.accepted o] ++ cancelled.map Rec.discarded) =
            responded v.log := by
          rw [responded_append, responded_append, responded_map_nil _ (by intro a o h; cases h)]
          simp [responded]
        have hst : started (v.log ++ [Rec.accepted o] ++ cancelled.map Rec.discarded) =
            started v.log := by
          rw [Verif.Delivery.started_append, Verif.Delivery.started_append,
            started_map_nil _ (by intro a o h; cases h)]
          simp [started]
        dsimp only at hs
        cases stop with
        | none =>
          simp only [Option.some.injEq] at hs
          subst hs
          exact ⟨hr, active v, [], by simp [active], by rw [hst, List.append_nil],
            List.Sublist.refl _, fun _ => rfl⟩
        | some s =>
          have hp : Preempts instr := by
            have : instr = o.instr := by rw [ho]
            rw [this]
            unfold insertNewOrder at hi
            split at hi
            · split at hi
              · obtain ⟨r, hr', he'⟩ := Option.map_eq_some_iff.mp hi
                obtain ⟨r1, r2⟩ := r
                simp only [Prod.mk.injEq] at he'
                obtain ⟨_, rfl⟩ := he'
                exact insertSerialOrder_stop hr'
              · cases hi
            · obtain ⟨r, hr', he'⟩ := Option.map_eq_some_iff.mp hi
              obtain ⟨r1, r2⟩ := r
              simp only [Prod.mk.injEq] at he'
              obtain ⟨_, rfl⟩ := he'
              exact insertSerialOrder_stop hr'
          dsimp only at hs
          unfold Svc.stop at hs
          simp only [hk] at hs
          cases hfind : v.tasks.find? (fun t => t.order.id == s.id) with
          | none =>
            rw [hfind] at hs
            cases hs
            exact ⟨hr, active v, [], by simp [active], by rw [hst, List.append_nil],
              List.Sublist.refl _, fun _ => rfl⟩
          | some t =>
            rw [hfind] at hs
            simp only [Svc.release] at hs
            have hsub : ((v.tasks.filter fun u => u.order.id != t.order.id).map
                (·.order)).Sublist (active v) := (List.filter_sublist).map _
            split at hs
            · cases hs
              refine ⟨?_, _, [], ?_, ?_, hsub, fun h => absurd hp h⟩
              · rw [responded_append, hr]; simp [responded]
              · rw [List.append_nil]; rfl
              · rw [Verif.Delivery.started_append, hst]; simp
            · obtain ⟨new, t1, t2, _, t4, _, _⟩ := serveNext_tasks _ _ _ _ hs
              refine ⟨?_, _, new.map (·.order), ?_, ?_, hsub, fun h => absurd hp h⟩
              · rw [t4, responded_append, hr]; simp [responded]
              · rw [active, t1, List.map_append]
              · rw [t2, Verif.Delivery.started_append, hst]; simp
  | cancelDone id =>
    simp only [Delivery.step] at hs
    have : v.tasks.find? (fun t => t.order.id == id && (t.status != .running && v.kind == .async))
        = none := by
      rw [List.find?_eq_none]
      intro t _
      simp [hk]
    rw [this] at hs
    cases hs
    exact ⟨rfl, active v, [], by simp, by simp, rfl⟩
  | unblock =>
    simp only [Delivery.step] at hs
    split at hs
    · cases hs
      exact ⟨rfl, active v, [], by simp, by simp, rfl⟩
    · obtain ⟨new, t1, t2, _, t4, _, _⟩ := serveNext_tasks _ _ _ _ hs
      exact ⟨t4, active v, new.map (·.order), by rw [active, t1, List.map_append]; rfl, t2, rfl⟩
  | cancelNow =>
    simp only [Delivery.step] at hs
    split at hs
    · cases hs
      exact ⟨rfl, active v, [], by simp, by simp, rfl⟩
    · cases hs
      refine ⟨rfl, active v, [], ?_, by simp, rfl⟩
      simp only [active, List.map_map, List.append_nil]
      apply List.map_congr_left
      intro t _
      simp only [Function.comp]
      split <;> rfl
  | cleanup source session =>
    simp only [Delivery.step, Svc.cleanTasks, hk, Option.some.injEq] at hs
    subst hs
    refine ⟨?_, _, [], ?_, ?_, rfl⟩
    · rw [responded_append, responded_append, responded_map_nil _ (by intro a o h; cases h),
        responded_map_nil _ (by intro a o h; cases h)]
      simp
    · simp only [active, List.append_nil]
      rw [List.filter_map]
      congr 1
      apply List.filter_congr
      intro t _
      simp [Function.comp, bne, Bool.beq_eq_decide_eq]
    · rw [Verif.Delivery.started_append, Verif.Delivery.started_append,
        started_map_nil _ (by intro a o h; cases h), started_map_nil _ (by intro a o h; cases h)]
      simp
  | sever source =>
    cases hs
    exact ⟨rfl, active v, [], by simp [active], by simp, rfl⟩

/-- The invariant of calm runs. -/
structure CInv (s : Cont) : Prop where
  inv : Inv none s.svc
  kind : s.svc.kind = .continuous
  pending : s.pending = []
  once : ∀ o, (s.given.map (·.1)).count o ≤ (responded s.svc.log).count o

theorem count_responded (log : List Rec) (o : Order) :
    (responded log).count o ≤ (ended log).count o := by
  induction log with
  | nil => exact Nat.le_refl _
  | cons r log ih =>
    rw [show r :: log = [r] ++ log from rfl, responded_append, Verif.Delivery.ended_append,
      List.count_append, List.count_append]
    have : (responded [r]).count o ≤ (ended [r]).count o := by
      cases r <;> simp [responded, ended]
    omega

/-- The indices of the responses of one run of a system. -/
theorem respondAll_index {orders : List Order} {attempts : List (Nat × Nat)} {rs : List Resp}
    (h : rs.map (fun r => (r.index, r.data)) = answers orders.length [] attempts) :
    rs.map (·.index) = (answers orders.length [] attempts).map (·.1) := by
  rw [← h, List.map_map]
  rfl

theorem deliver_spec {s : Cont} (h : Inv none s.svc) (hk : s.svc.kind = .continuous)
    (attempts : List (Nat × Nat)) :
    ∃ rs s' new, respondAll (visible s) [] attempts = rs ∧ deliver s rs = some s' ∧
      Inv none s'.svc ∧ s'.svc.kind = .continuous ∧ s'.pending = s.pending ∧
      s'.svc.severed = s.svc.severed ∧
      rs.map (fun r => (r.index, r.data)) = answers (visible s).length [] attempts ∧
      (∀ r ∈ rs, (visible s)[r.index]? = some r.order) ∧
      s'.given = s.given ++ (rs.filter fun r => decide (r.order.source ∉ s.svc.severed)).map
        (fun r => (r.order, r.data)) ∧
      visible s' = without (visible s) (fun i => decide (i ∈ rs.map (·.index))) ++ new ∧
      started s'.svc.log = started s.svc.log ++ new ∧
      ∃ os, os.Perm (rs.map (·.order)) ∧
        responded s'.svc.log = responded s.svc.log ++ os := by
  obtain ⟨rs, h1, h2, h3⟩ := respondAll_eq (visible s) attempts [] [] (by simp)
  rw [List.nil_append] at h1
  have hidx := respondAll_index h2
  have hnd : (rs.map (·.index)).Nodup := by rw [hidx]; exact answers_nodup _ _ _
  have hlt : ∀ i ∈ sortDesc (rs.map (·.index)), i < s.svc.tasks.length := by
    intro i hi
    rw [mem_sortDesc, hidx] at hi
    obtain ⟨a, ha, rfl⟩ := List.mem_map.mp hi
    have := (answers_fresh _ _ _ a ha).1
    simpa [visible] using this
  obtain ⟨v', new, k1, k2, k3, k4, k5, k6, k7, os, k8, k9⟩ :=
    retireAll_spec _ h hk (sortDesc_sorted _ hnd) hlt
  refine ⟨rs, { s with
      svc := v'
      given := s.given ++ (rs.filter fun r => decide (r.order.source ∉ s.svc.severed)).map
        fun r => (r.order, r.data) }, new, h1, by simp only [deliver, k1], k2, k3, rfl, k4, h2, h3, rfl, ?_, k7, os, ?_,
    k9⟩
  · rw [foldl_eraseIdx _ _ (sortDesc_sorted _ hnd)] at k6
    show active v' = _
    rw [k6]
    congr 1
    apply without_congr
    intro i _
    rw [Bool.eq_iff_iff, decide_eq_true_iff, decide_eq_true_iff, mem_sortDesc]
  · have h4 : ((sortDesc (rs.map (·.index))).map (fun i => (active s.svc)[i]?)).Perm
        ((rs.map (·.order)).map some) := by
      refine ((perm_sortDesc _).map _).trans ?_
      rw [List.map_map, List.map_map]
      refine List.Perm.of_eq (List.map_congr_left fun r hr => ?_)
      exact h3 r hr
    rw [← k8] at h4
    have h5 := h4.filterMap id
    simpa using h5

theorem CInv.step {s : Cont} (h : CInv s) {e : Ev} (he : e ≠ .apply ∧ ∀ l, e ≠ .system l) :
    ∃ s', step s e = some s' ∧ CInv s' := by
  cases e with
  | apply => exact absurd rfl he.1
  | system l => exact absurd rfl (he.2 l)
  | base e =>
    by_cases hf : ∃ id, e = .finish id
    · obtain ⟨id, rfl⟩ := hf
      exact ⟨s, rfl, h⟩
    · have hf' : ∀ id, e ≠ .finish id := fun id hc => hf ⟨id, hc⟩
      obtain ⟨v', h1, h2, _⟩ := step_inv h.inv e
      have hb := (base_spec h.kind hf' h1).1
      refine ⟨{ s with svc := v' }, ?_, h2, by rw [← h.kind]; exact step_kind h1, h.pending, ?_⟩
      · cases e with
        | finish id => exact absurd rfl (hf' id)
        | _ => simp only [Continuous.step, h1, Option.map_some]
      · intro o
        rw [hb]
        exact h.once o
  | frame attempts =>
    obtain ⟨rs, s', new, h1, h2, h3, h4, h5, h6, h7, h8, h9, h10, h11, os, h12, h13⟩ :=
      deliver_spec h.inv h.kind attempts
    simp only [Continuous.step]
    rw [show s.svc.tasks.map (·.order) = visible s from rfl, h1]
    split
    · exact ⟨s, rfl, h⟩
    · refine ⟨s', h2, h3, h4, by rw [h5]; exact h.pending, ?_⟩
      intro o
      rw [h9, h13, List.map_append, List.count_append, List.count_append, h12.count_eq, List.map_map]
      have h14 : ((rs.filter fun r => decide (r.order.source ∉ s.svc.severed)).map
          ((fun x : Order × Nat => x.1) ∘ fun r => (r.order, r.data))).count o ≤
          (rs.map (·.order)).count o :=
        ((List.filter_sublist).map (fun r : Resp => r.order)).count_le o
      have := h.once o
      omega

theorem CInv.run (es : List Ev) : ∀ {s : Cont}, CInv s → Calm es →
    ∃ s', run s es = some s' ∧ CInv s' := by
  induction es with
  | nil => intro s h _; exact ⟨s, rfl, h⟩
  | cons e es ih =>
    intro s h hc
    obtain ⟨s1, h1, h2⟩ := h.step (hc e (List.mem_cons_self ..))
    obtain ⟨s', h3, h4⟩ := ih h2 (fun e' he' => hc e' (List.mem_cons_of_mem _ he'))
    exact ⟨s', by simp [Continuous.run, h1, h3], h4⟩

theorem CInv.fresh (par : Bool) : CInv (Cont.fresh par) :=
  ⟨fresh_inv _ _, rfl, rfl, fun o => by simp [Cont.fresh]⟩

end Verif.Continuous
