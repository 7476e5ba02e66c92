import Verif.Delivery.Lemmas

/-
The invariant is kept by every event, hence by every run.
-/
namespace Verif.Delivery

set_option linter.unusedSimpArgs false
set_option linter.unusedVariables false

/-- Changing the status of tasks does not matter. -/
theorem Inv.status {ex : Option (Option Nat)} {v : Svc} (h : Inv ex v) (g : Task → Task)
    (ho : ∀ t, (g t).order = t.order) (hb : ∀ t, (g t).blocker = t.blocker) :
    Inv ex { v with tasks := v.tasks.map g } := by
  have hact : active { v with tasks := v.tasks.map g } = active v := by
    simp only [active, List.map_map]
    apply List.map_congr_left
    intro t _
    exact ho t
  refine { h with acc := ?_, st := ?_, tkey := ?_, blk := ?_, live := ?_, cont := ?_ }
  · intro o
    rw [hact]
    exact h.acc o
  · intro o
    rw [hact]
    exact h.st o
  · intro t ht k hk
    obtain ⟨u, hu, rfl⟩ := List.mem_map.mp ht
    rw [ho] at hk
    exact h.tkey u hu k hk
  · intro t ht
    obtain ⟨u, hu, rfl⟩ := List.mem_map.mp ht
    rw [ho, hb]
    exact h.blk u hu
  · intro hc k hk hd
    rcases h.live hc k hk hd with ⟨t, ht, htk⟩ | hu
    · exact .inl ⟨g t, List.mem_map.mpr ⟨t, ht, rfl⟩, by rw [ho]; exact htk⟩
    · exact .inr hu
  · intro hc k hk d hd
    rcases h.cont hc k hk d hd with hm | hm
    · left
      obtain ⟨t, ht, rfl⟩ := List.mem_map.mp hm
      exact List.mem_map.mpr ⟨g t, List.mem_map.mpr ⟨t, ht, rfl⟩, ho t⟩
    · exact .inr hm

/-- A further entry in the list of blockers to be released. -/
theorem Inv.push {ex : Option (Option Nat)} {v : Svc} (h : Inv ex v) {label k : Option Nat}
    (hl : lkey v.delivery.parallel label = some k) (hk : k ∈ v.delivery.keys)
    (ha : v.kind ≠ .workflow) : Inv ex { v with unblocks := v.unblocks ++ [label] } := by
  refine { h with ukey := ?_, live := ?_, wf := ?_ }
  · intro u hu
    rcases List.mem_append.mp hu with hu | hu
    · exact h.ukey u hu
    · rw [List.mem_singleton.mp hu]
      exact ⟨k, hk, hl⟩
  · intro hc k' hk' hd
    rcases h.live hc k' hk' hd with ht | ⟨u, hu, huk⟩
    · exact .inl ht
    · exact .inr ⟨u, List.mem_append.mpr (.inl hu), huk⟩
  · intro hw
    exact absurd hw ha

/-- A request that finds its queue free, or belongs to none, is started. -/
theorem serve_start_inv {v : Svc} (h : Inv none v) (o : Order) (hid : o.id = v.next)
    (hq : queueOf v.delivery.parallel o = none) :
    Inv none ({ v with next := v.next + 1, log := v.log ++ [Rec.accepted o] }.start o none) := by
  have hna : o ∉ accepted v.log := h.not_accepted (by omega)
  have hzero := h.acc o
  rw [List.count_eq_zero.mpr hna] at hzero
  refine
    { nodup := h.nodup
      absent := h.absent
      serialKey := h.serialKey
      fresh := ?_
      ids := ?_
      acc := ?_
      st := ?_
      idle := h.idle
      dacc := fun k d hd => by simpa [Svc.start] using .inl (h.dacc k d hd)
      dkey := h.dkey
      qkey := h.qkey
      tkey := ?_
      blk := ?_
      ukey := h.ukey
      live := ?_
      cont := ?_
      wf := h.wf
      order := ?_ }
  · intro x hx
    simp only [Svc.start, accepted_append, accepted_accepted, accepted_started, List.append_nil,
      List.mem_append, List.mem_singleton] at hx ⊢
    rcases hx with hx | rfl
    · have := h.fresh x hx
      omega
    · omega
  · simp only [Svc.start, accepted_append, accepted_accepted, accepted_started, List.append_nil,
      List.map_append, List.map_cons, List.map_nil]
    rw [List.nodup_append]
    refine ⟨h.ids, by simp, ?_⟩
    intro a ha b hb
    obtain ⟨x, hx, rfl⟩ := List.mem_map.mp ha
    have := h.fresh x hx
    rw [List.mem_singleton.mp hb]
    omega
  · intro x
    have h2 := h.acc x
    simp only [Svc.start, waiting, active, accepted_append, ended_append, lost_append,
      accepted_accepted, accepted_started, ended_accepted, ended_started, lost_accepted,
      lost_started, List.append_nil,
      List.count_append, List.map_append, List.map_cons, List.map_nil] at h2 ⊢
    omega
  · intro x
    have h2 := h.st x
    simp only [Svc.start, active, started_append, ended_append, started_accepted, started_started,
      ended_accepted, ended_started, List.append_nil, List.count_append, List.map_append,
      List.map_cons, List.map_nil] at h2 ⊢
    omega
  · intro t ht k hk
    simp only [Svc.start, List.mem_append, List.mem_singleton] at ht
    rcases ht with ht | rfl
    · exact h.tkey t ht k hk
    · simp only [Svc.start] at hk
      rw [hq] at hk
      cases hk
  · intro t ht
    simp only [Svc.start, List.mem_append, List.mem_singleton] at ht
    rcases ht with ht | rfl
    · exact h.blk t ht
    · simp [Svc.start, hq]
  · intro hc k hk hd
    rcases h.live hc k hk hd with ⟨t, ht, htk⟩ | hu
    · exact .inl ⟨t, List.mem_append.mpr (.inl ht), htk⟩
    · exact .inr hu
  · intro hc k hk d hd
    rcases h.cont hc k hk d hd with hm | hm
    · left
      simp only [active, Svc.start, List.map_append, List.mem_append]
      exact .inl hm
    · right
      simp [Svc.start, hm]
  · intro k
    simp only [Svc.start, accepted_append, started_append, lost_append,
      accepted_accepted, started_accepted, lost_accepted,
      accepted_started, started_started, lost_started, List.append_nil]
    refine ((h.order k).accept_other ?_).start_other ?_ <;> rw [hq] <;> simp

theorem absent_set {d : Delivery} (ha : ∀ k, k ∉ d.keys → d.lane k = {}) (k : Option Nat)
    (s : Serial) : ∀ k', k' ∉ (d.set k s).keys → (d.set k s).lane k' = {} := by
  intro k' hk'
  have : k' ∉ d.keys ∧ k' ≠ k := by
    rw [mem_set_keys] at hk'; exact not_or.mp hk'
  simp only [set_lane, this.2, if_false]
  exact ha k' this.1

theorem serve_idle_inv {v : Svc} (h : Inv none v) (o : Order) (hid : o.id = v.next) (k : Option Nat)
    (hq : queueOf v.delivery.parallel o = some k) (hi : (v.delivery.lane k).queue = []) :
    Inv none ({ v with
      delivery := v.delivery.set k { delivering := some o, queue := [] }
      next := v.next + 1
      log := v.log ++ [Rec.accepted o] }.start o (some (o.instr.map Instr.label))) := by
  have hna : o ∉ accepted v.log := h.not_accepted (by omega)
  have hzero := h.acc o
  rw [List.count_eq_zero.mpr hna] at hzero
  have hnl : o ∉ lost v.log := List.count_eq_zero.mp (by omega)
  refine
    { nodup := set_keys_nodup _ _ _ h.nodup
      absent := absent_set h.absent _ _
      serialKey := fun hp => (mem_set_keys _ _ _ _).mpr (.inl (h.serialKey hp))
      fresh := ?_
      ids := ?_
      acc := ?_
      st := ?_
      idle := ?_
      dacc := ?_
      dkey := dkey_set h.dkey (fun x hx => by cases hx; exact hq)
      qkey := ?_
      tkey := ?_
      blk := ?_
      ukey := ?_
      live := ?_
      cont := ?_
      wf := h.wf
      order := ?_ }
  · intro x hx
    simp only [Svc.start, accepted_append, accepted_accepted, accepted_started, List.append_nil,
      List.mem_append, List.mem_singleton] at hx ⊢
    rcases hx with hx | rfl
    · have := h.fresh x hx
      omega
    · omega
  · simp only [Svc.start, accepted_append, accepted_accepted, accepted_started, List.append_nil,
      List.map_append, List.map_cons, List.map_nil]
    rw [List.nodup_append]
    refine ⟨h.ids, by simp, ?_⟩
    intro a ha b hb
    obtain ⟨x, hx, rfl⟩ := List.mem_map.mp ha
    have := h.fresh x hx
    rw [List.mem_singleton.mp hb]
    omega
  · intro x
    have h1 := count_waiting_set v.delivery k { delivering := some o, queue := [] } x h.nodup
      h.absent
    have h2 := h.acc x
    simp only [hi, Svc.start, waiting, active, accepted_append, ended_append, lost_append,
      accepted_accepted, accepted_started, ended_accepted, ended_started, lost_accepted,
      lost_started, List.append_nil, List.count_nil,
      List.count_append, List.map_append, List.map_cons, List.map_nil] at h1 h2 ⊢
    omega
  · intro x
    have h2 := h.st x
    simp only [Svc.start, active, started_append, ended_append, started_accepted, started_started,
      ended_accepted, ended_started, List.append_nil, List.count_append, List.map_append,
      List.map_cons, List.map_nil] at h2 ⊢
    omega
  · intro k'
    simp only [Svc.start, set_lane]
    split
    · intro _; rfl
    · exact h.idle k'
  · intro k' d hd
    simp only [Svc.start, set_lane] at hd
    have : d ∈ accepted v.log ∨ d = o := by
      split at hd
      · cases hd; exact .inr rfl
      · exact .inl (h.dacc k' d hd)
    simp only [Svc.start, accepted_append, accepted_accepted, accepted_started, List.append_nil,
      List.mem_append, List.mem_singleton]
    exact this
  · intro k' x
    simp only [Svc.start, set_lane]
    split
    · intro hx; simp at hx
    · exact h.qkey k' x
  · intro t ht k' hk'
    refine (mem_set_keys _ _ _ _).mpr ?_
    simp only [Svc.start, List.mem_append, List.mem_singleton] at ht
    rcases ht with ht | rfl
    · exact .inl (h.tkey t ht k' hk')
    · simp only [Svc.start, set_parallel, hq, Option.some.injEq] at hk'
      exact .inr hk'.symm
  · intro t ht
    simp only [Svc.start, List.mem_append, List.mem_singleton] at ht
    rcases ht with ht | rfl
    · exact h.blk t ht
    · simp [Svc.start, hq]
  · intro u hu
    obtain ⟨k', hk', hu'⟩ := h.ukey u hu
    exact ⟨k', (mem_set_keys _ _ _ _).mpr (.inl hk'), hu'⟩
  · intro hc k' hk' hd
    by_cases he : k' = k
    · subst he
      exact .inl ⟨_, List.mem_append.mpr (.inr (List.mem_singleton.mpr rfl)), hq⟩
    · simp only [Svc.start, set_lane, he, if_false] at hd
      rcases h.live hc k' hk' hd with ⟨t, ht, htk⟩ | hu
      · exact .inl ⟨t, List.mem_append.mpr (.inl ht), htk⟩
      · exact .inr hu
  · intro hc k' hk' d hd
    by_cases he : k' = k
    · subst he
      simp only [Svc.start, set_lane, if_true, Option.some.injEq] at hd
      subst hd
      left
      simp [active, Svc.start]
    · simp only [Svc.start, set_lane, he, if_false] at hd
      rcases h.cont hc k' hk' d hd with hm | hm
      · left
        simp only [active, Svc.start, List.map_append, List.mem_append]
        exact .inl hm
      · right
        simp [Svc.start, hm]
  · intro k'
    simp only [Svc.start, accepted_append, started_append, lost_append, set_lane, set_parallel,
      accepted_accepted, started_accepted, lost_accepted,
      accepted_started, started_started, lost_started, List.append_nil]
    have hold := h.order k'
    split
    · rename_i he
      subst he
      rw [hi] at hold
      exact (hold.accept hq hnl).start hq
    · rename_i hne
      have : queueOf v.delivery.parallel o ≠ some k' := by
        rw [hq]
        exact fun h => hne (Option.some.inj h).symm
      exact (hold.accept_other this).start_other this

theorem serve_busy_inv {v : Svc} (h : Inv none v) (o d : Order) (hid : o.id = v.next)
    (k : Option Nat) (hq : queueOf v.delivery.parallel o = some k)
    (hd : (v.delivery.lane k).delivering = some d) (bad : Order → Bool) :
    Inv none { v with
      delivery := v.delivery.set k
        { delivering := some d, queue := (v.delivery.lane k).queue.filter (fun e => !bad e) ++ [o] }
      next := v.next + 1
      log := v.log ++ [.accepted o] ++ ((v.delivery.lane k).queue.filter bad).map .discarded } := by
  have hna : o ∉ accepted v.log := h.not_accepted (by omega)
  have hzero := h.acc o
  rw [List.count_eq_zero.mpr hna] at hzero
  have hnl : o ∉ lost v.log := List.count_eq_zero.mp (by omega)
  refine
    { nodup := set_keys_nodup _ _ _ h.nodup
      absent := absent_set h.absent _ _
      serialKey := fun hp => (mem_set_keys _ _ _ _).mpr (.inl (h.serialKey hp))
      fresh := ?_
      ids := ?_
      acc := ?_
      st := ?_
      idle := ?_
      dacc := ?_
      dkey := dkey_set h.dkey (fun x hx => by cases hx; exact h.dkey k d hd)
      qkey := ?_
      tkey := fun t ht k' hk' => (mem_set_keys _ _ _ _).mpr (.inl (h.tkey t ht k' hk'))
      blk := h.blk
      ukey := ?_
      live := ?_
      cont := ?_
      wf := h.wf
      order := ?_ }
  · intro x hx
    simp only [accepted_append, accepted_accepted, accepted_discarded, List.append_nil,
      List.mem_append, List.mem_singleton] at hx ⊢
    rcases hx with hx | rfl
    · have := h.fresh x hx
      omega
    · omega
  · simp only [accepted_append, accepted_accepted, accepted_discarded, List.append_nil,
      List.map_append, List.map_cons, List.map_nil]
    rw [List.nodup_append]
    refine ⟨h.ids, by simp, ?_⟩
    intro a ha b hb
    obtain ⟨x, hx, rfl⟩ := List.mem_map.mp ha
    have := h.fresh x hx
    rw [List.mem_singleton.mp hb]
    omega
  · intro x
    have h1 := count_waiting_set v.delivery k
      { delivering := some d,
        queue := (v.delivery.lane k).queue.filter (fun e => !bad e) ++ [o] } x h.nodup h.absent
    have h2 := h.acc x
    have h3 : ∀ l : List Order, (l.filter (fun e => !bad e)).count x + (l.filter bad).count x
        = l.count x := by
      intro l
      induction l with
      | nil => rfl
      | cons a l ih =>
        rw [List.filter_cons, List.filter_cons]
        cases bad a <;> simp [List.count_cons] <;> omega
    have h3 := h3 (v.delivery.lane k).queue
    simp only [waiting, active, accepted_append, ended_append, lost_append,
      accepted_accepted, accepted_discarded, ended_accepted, ended_discarded, lost_accepted,
      lost_discarded, List.append_nil, List.count_nil,
      List.count_append, List.map_append, List.map_cons, List.map_nil] at h1 h2 ⊢
    omega
  · intro x
    have h2 := h.st x
    simp only [active, started_append, ended_append, started_accepted, started_discarded,
      ended_accepted, ended_discarded, List.append_nil] at h2 ⊢
    exact h2
  · intro k'
    simp only [set_lane]
    split
    · intro hx; simp at hx
    · exact h.idle k'
  · intro k' x hx
    simp only [set_lane] at hx
    have : x ∈ accepted v.log := by
      split at hx
      · cases hx; exact h.dacc k d hd
      · exact h.dacc k' x hx
    simpa using Or.inl this
  · intro k' x
    simp only [set_lane, set_parallel]
    split
    · rename_i he
      subst he
      intro hx
      rcases List.mem_append.mp hx with hx | hx
      · exact h.qkey _ x (List.mem_filter.mp hx).1
      · rw [List.mem_singleton.mp hx]
        exact hq
    · exact h.qkey k' x
  · intro u hu
    obtain ⟨k', hk', hu'⟩ := h.ukey u hu
    exact ⟨k', (mem_set_keys _ _ _ _).mpr (.inl hk'), hu'⟩
  · intro hc k' hk' hd'
    refine h.live hc k' hk' ?_
    simp only [set_lane] at hd'
    split at hd'
    · rename_i he
      subst he
      rw [hd]
      simp
    · exact hd'
  · intro hc k' hk' x hx
    have hx' : (v.delivery.lane k').delivering = some x := by
      simp only [set_lane] at hx
      split at hx
      · rename_i he
        subst he
        rw [hd]
        exact hx
      · exact hx
    exact (h.cont hc k' hk' x hx').imp_right fun hm => by simp [hm]
  · intro k'
    have hsub : ∀ x ∈ (v.delivery.lane k).queue.filter bad, x ∉ started v.log :=
      fun x hx => h.queue_not_started (List.mem_filter.mp hx).1
    have hold := (h.order k').lose _ hsub
    have hon : o ∉ (v.delivery.lane k).queue.filter bad := by
      intro ho
      exact hna (h.mem_accepted_of_queue (List.mem_filter.mp ho).1)
    simp only [accepted_append, started_append, lost_append, set_lane, set_parallel,
      accepted_accepted, started_accepted, lost_accepted,
      accepted_discarded, started_discarded, lost_discarded, List.append_nil]
    split
    · rename_i he
      subst he
      refine OrderOK.accept ?_ hq (by simp [hnl]; simpa using hon)
      refine Eq.mp (congrArg _ ?_) hold
      apply List.filter_congr
      intro x hx
      simp [hx]
    · rename_i hne
      have hno : queueOf v.delivery.parallel o ≠ some k' := by
        rw [hq]
        exact fun h => hne (Option.some.inj h).symm
      refine OrderOK.accept_other ?_ hno
      refine Eq.mp (congrArg _ ?_) hold
      rw [List.filter_eq_self]
      intro x hx
      simp only [decide_eq_true_eq]
      intro hx'
      have h1 := h.qkey k' x hx
      have h2 := h.qkey k x (List.mem_filter.mp hx').1
      rw [h1] at h2
      exact hne (Option.some.inj h2)

/-- A task ends. -/
theorem release_task_inv {v : Svc} (h : Inv none v) {t : Task} (ht : t ∈ v.tasks) (r : Rec)
    (hr : r = .responded t.order ∨ r = .stopped t.order ∨ r = .cleaned t.order)
    (ex : Option (Option Nat)) (hex : ∀ k, queueOf v.delivery.parallel t.order = some k → ex = some k) :
    Inv ex { v with
      tasks := v.tasks.filter (fun u => u.order.id != t.order.id), log := v.log ++ [r] } := by
  have hr' : accepted [r] = [] ∧ started [r] = [] ∧ ended [r] = [t.order] ∧ lost [r] = [] := by
    rcases hr with rfl | rfl | rfl <;> simp
  obtain ⟨hr1, hr2, hr3, hr4⟩ := hr'
  refine
    { nodup := h.nodup
      absent := h.absent
      serialKey := h.serialKey
      fresh := by simpa [hr1] using h.fresh
      ids := by simpa [hr1] using h.ids
      acc := ?_
      st := ?_
      idle := h.idle
      dacc := fun k d hd => by simpa [hr1] using h.dacc k d hd
      dkey := h.dkey
      qkey := h.qkey
      tkey := fun u hu => h.tkey u (List.mem_filter.mp hu).1
      blk := fun u hu => h.blk u (List.mem_filter.mp hu).1
      ukey := h.ukey
      live := ?_
      cont := ?_
      wf := h.wf
      order := ?_ }
  · intro o
    have h1 := h.count_filter ht o
    have h2 := h.acc o
    simp only [waiting, active, accepted_append, ended_append, lost_append, hr1, hr3, hr4,
      List.append_nil, List.count_append] at h1 h2 ⊢
    omega
  · intro o
    have h1 := h.count_filter ht o
    have h2 := h.st o
    simp only [active, started_append, ended_append, hr2, hr3,
      List.append_nil, List.count_append] at h1 h2 ⊢
    omega
  · intro hc k hk hd
    rcases h.live hc k (by simp) hd with ⟨u, hu, huk⟩ | hu
    · refine .inl ⟨u, List.mem_filter.mpr ⟨hu, ?_⟩, huk⟩
      simp only [bne_iff_ne, ne_eq]
      intro hid
      have := h.task_of_id hu ht hid
      rw [this] at huk
      exact hk (hex k huk)
    · exact .inr hu
  · intro hc k hk d hd
    rcases h.cont hc k (by simp) d hd with hm | hm
    · by_cases hdt : d = t.order
      · subst hdt
        exact absurd (hex k (h.dkey k _ hd)) hk
      · left
        obtain ⟨u, hu, rfl⟩ := List.mem_map.mp hm
        refine List.mem_map.mpr ⟨u, List.mem_filter.mpr ⟨hu, ?_⟩, rfl⟩
        simp only [bne_iff_ne, ne_eq]
        exact fun hid => hdt (h.task_of_id hu ht hid)
    · right
      simp [hm]
  · intro k
    simp only [accepted_append, started_append, lost_append, hr1, hr2, hr4, List.append_nil]
    exact h.order k

theorem release_inv {v : Svc} (h : Inv none v) {t : Task} (ht : t ∈ v.tasks) (r : Rec)
    (hr : r = .responded t.order ∨ r = .stopped t.order ∨ r = .cleaned t.order) :
    ∃ v', v.release t r = some v' ∧ Inv none v' ∧
      v'.delivery.parallel = v.delivery.parallel := by
  unfold Svc.release
  have hb := h.blk t ht
  cases hq : queueOf v.delivery.parallel t.order with
  | none =>
    rw [hq] at hb
    simp only [Option.map_none] at hb
    simp only [hb]
    exact ⟨_, rfl, release_task_inv h ht r hr none (by rw [hq]; simp), rfl⟩
  | some k =>
    rw [hq] at hb
    simp only [Option.map_some] at hb
    simp only [hb]
    have hinv := release_task_inv h ht r hr (some k) (by rw [hq]; simp)
    have hk := h.tkey t ht k hq
    have hl := lkey_label v.delivery.parallel t.order
    rw [hq] at hl
    cases hkind : v.kind
    · refine ⟨_, rfl, ?_, rfl⟩
      have h2 := hinv.push (label := t.order.instr.map Instr.label) hl hk (by simp [hkind])
      refine { h2 with live := ?_, cont := (fun hc => by cases hc), wf := fun hw => by cases hw }
      intro hc k' _ hd
      by_cases he : k' = k
      · subst he
        exact .inr ⟨_, List.mem_append.mpr (.inr (List.mem_singleton.mpr rfl)), hl⟩
      · exact h2.live (by simp [hkind]) k' (fun hx => he (Option.some.inj hx).symm) hd
    all_goals
      simp only []
      refine serveNext_inv _ k _ _ (hkind ▸ hinv) hl hk ?_
      unfold Svc.fuel
      have : (if v.delivery.parallel = true then t.order.instr.map Instr.label else none) = k := by
        unfold lkey at hl
        cases hp : v.delivery.parallel
        · simp only [hp, Bool.false_eq_true, if_false, Option.some.injEq] at hl ⊢
          exact hl
        · simp only [hp, if_true] at hl ⊢
          cases hi : t.order.instr.map Instr.label with
          | none => rw [hi] at hl; simp at hl
          | some l => rw [hi] at hl; simpa using hl
      simp only [this]
      omega

theorem stop_inv {v : Svc} (h : Inv none v) (d : Order) (label k : Option Nat)
    (hl : lkey v.delivery.parallel label = some k) (hk : k ∈ v.delivery.keys) :
    ∃ v', v.stop d label = some v' ∧ Inv none v' ∧
      v'.delivery.parallel = v.delivery.parallel := by
  unfold Svc.stop
  split
  · rename_i ha
    split
    · refine ⟨_, rfl, h.status _ ?_ ?_, rfl⟩ <;> intro t <;> split <;> rfl
    · exact ⟨_, rfl, h.push hl hk (by simp [ha]), rfl⟩
  · exact ⟨_, rfl, { h with }, rfl⟩
  · rename_i hc
    split
    · rename_i t hf
      exact release_inv h (List.mem_of_find?_eq_some hf) _ (.inr (.inl rfl))
    · exact ⟨_, rfl, h.push hl hk (by simp [hc]), rfl⟩

theorem serve_inv {v : Svc} (h : Inv none v) (source session : Nat) (instr : Option Instr) :
    ∃ v', v.serve source session instr = some v' ∧ Inv none v' ∧
      v'.delivery.parallel = v.delivery.parallel := by
  unfold Svc.serve
  rcases insertNewOrder_eq v.delivery { id := v.next, source, session, instr } with
    ⟨hq, he⟩ | ⟨k, hq, he⟩
  · simp only [he]
    exact ⟨_, rfl, serve_start_inv h _ rfl hq, rfl⟩
  · rcases insertSerialOrder_eq (v.delivery.lane k) { id := v.next, source, session, instr }
      (h.idle k) with ⟨hd, hi, hs⟩ | ⟨d, bad, stop, hd, hs, _⟩
    · simp only [he, hs, Option.map_some]
      exact ⟨_, rfl, serve_idle_inv h _ rfl k hq hi, rfl⟩
    · simp only [he, hs, Option.map_some]
      have hb := serve_busy_inv h { id := v.next, source, session, instr } d rfl k hq hd bad
      cases stop with
      | none => exact ⟨_, rfl, hb, rfl⟩
      | some d' =>
        refine stop_inv hb d' _ k ?_ ((mem_set_keys _ _ _ _).mpr (.inr rfl))
        simp only [set_parallel]
        rw [← hq]
        exact lkey_label _ { id := v.next, source, session, instr }

theorem unblock_inv {v : Svc} (h : Inv none v) (label : Option Nat) (rest : List (Option Nat))
    (hu : v.unblocks = label :: rest) :
    ∃ v', { v with unblocks := rest }.serveNext label (v.fuel label) = some v' ∧ Inv none v' ∧
      v'.delivery.parallel = v.delivery.parallel := by
  obtain ⟨k, hk, hl⟩ := h.ukey label (by rw [hu]; exact List.mem_cons_self ..)
  refine serveNext_inv label k _ _ ?_ hl hk ?_
  · refine { h with ukey := ?_, live := ?_, cont := ?_, wf := ?_ }
    · intro u hu'
      exact h.ukey u (by rw [hu]; exact List.mem_cons_of_mem _ hu')
    · intro hc k' hk' hd
      rcases h.live hc k' (by simp) hd with ht | ⟨u, hu', huk⟩
      · exact .inl ht
      · rw [hu] at hu'
        rcases List.mem_cons.mp hu' with rfl | hu'
        · rw [hl] at huk
          exact absurd huk hk'
        · exact .inr ⟨u, hu', huk⟩
    · exact fun hc k' _ d hd => h.cont hc k' (by simp) d hd
    · intro hw
      have := h.wf hw
      rw [hu] at this
      cases this
  · unfold Svc.fuel
    have : (if v.delivery.parallel = true then label else none) = k := by
      unfold lkey at hl
      cases hp : v.delivery.parallel
      · simp only [hp, Bool.false_eq_true, if_false, Option.some.injEq] at hl ⊢
        exact hl
      · simp only [hp, if_true] at hl ⊢
        cases label with
        | none => simp at hl
        | some l => simpa using hl
    simp only [this]
    omega

theorem cleanup_delivery_inv {v : Svc} (h : Inv none v) (session : Nat) :
    Inv none { v with
      delivery := v.delivery.cleanup session
      log := v.log ++ (v.delivery.waitingOf session).map .removed } := by
  have hmem : ∀ x k, x ∈ (v.delivery.lane k).queue →
      (x ∈ v.delivery.waitingOf session ↔ x.session = session) := by
    intro x k hx
    simp only [Delivery.waitingOf, List.mem_flatMap, List.mem_filter]
    constructor
    · rintro ⟨_, _, _, h⟩
      simpa using h
    · intro hs
      have := h.queue_mem_waiting hx
      obtain ⟨k', hk', hx'⟩ := List.mem_flatMap.mp this
      exact ⟨k', hk', hx', by simpa using hs⟩
  refine
    { nodup := h.nodup
      absent := ?_
      serialKey := h.serialKey
      fresh := by simpa using h.fresh
      ids := by simpa using h.ids
      acc := ?_
      st := by simpa [active] using h.st
      idle := ?_
      dacc := fun k d hd => by simpa using h.dacc k d hd
      dkey := h.dkey
      qkey := ?_
      tkey := h.tkey
      blk := h.blk
      ukey := h.ukey
      live := h.live
      cont := fun hc k hk d hd => (h.cont hc k hk d hd).imp_right fun hm => by simp [hm]
      wf := h.wf
      order := ?_ }
  · intro k hk
    simp only [Delivery.cleanup]
    rw [h.absent k hk]
    rfl
  · intro o
    have h2 := h.acc o
    have h3 : ∀ ks : List (Option Nat),
        (ks.flatMap fun k => ((v.delivery.lane k).queue.filter (fun o => o.session != session))).count o +
        (ks.flatMap fun k => ((v.delivery.lane k).queue.filter (fun o => o.session == session))).count o =
        (ks.flatMap fun k => (v.delivery.lane k).queue).count o := by
      have h4 : ∀ l : List Order, (l.filter (fun o => o.session != session)).count o +
          (l.filter (fun o => o.session == session)).count o = l.count o := by
        intro l
        induction l with
        | nil => rfl
        | cons a l ih =>
          rw [List.filter_cons, List.filter_cons]
          by_cases ha : a.session = session
          · simp [ha, List.count_cons]
            omega
          · simp [ha, List.count_cons]
            omega
      intro ks
      induction ks with
      | nil => rfl
      | cons k ks ih =>
        have := h4 (v.delivery.lane k).queue
        simp only [List.flatMap_cons, List.count_append]
        omega
    have h3 := h3 v.delivery.keys
    simp only [waiting, active, accepted_append, ended_append, lost_append, accepted_removed,
      ended_removed, lost_removed, List.append_nil, List.count_append, Delivery.cleanup,
      Delivery.waitingOf] at h2 h3 ⊢
    omega
  · intro k hd
    simp only [Delivery.cleanup] at hd ⊢
    rw [h.idle k hd]
    rfl
  · intro k o ho
    simp only [Delivery.cleanup] at ho ⊢
    exact h.qkey k o (List.mem_filter.mp ho).1
  · intro k
    have hold := (h.order k).lose (v.delivery.waitingOf session) (by
      intro x hx
      obtain ⟨k', _, hx'⟩ := List.mem_flatMap.mp hx
      exact h.queue_not_started (List.mem_filter.mp hx').1)
    simp only [accepted_append, started_append, lost_append, accepted_removed, started_removed,
      lost_removed, List.append_nil, Delivery.cleanup]
    refine Eq.mp (congrArg _ ?_) hold
    apply List.filter_congr
    intro x hx
    have := hmem x k hx
    by_cases hs : x.session = session
    · simp [this, hs]
    · simp [this, hs]

theorem cleanTasks_inv {v : Svc} (h : Inv none v) (source session : Nat) :
    Inv none (v.cleanTasks source session) := by
  unfold Svc.cleanTasks
  split
  · refine h.status _ ?_ ?_ <;> intro t <;> split <;> rfl
  · refine h.status _ ?_ ?_ <;> intro t <;> split <;> rfl
  rename_i hc
  have hnil : ∀ l : List Task, accepted (l.map fun t => Rec.cleaned t.order) = [] ∧
      started (l.map fun t => Rec.cleaned t.order) = [] ∧
      ended (l.map fun t => Rec.cleaned t.order) = l.map (·.order) ∧
      lost (l.map fun t => Rec.cleaned t.order) = [] := by
    intro l
    induction l with
    | nil => exact ⟨rfl, rfl, rfl, rfl⟩
    | cons a l ih =>
      obtain ⟨h1, h2, h3, h4⟩ := ih
      refine ⟨?_, ?_, ?_, ?_⟩
      · simpa [accepted] using h1
      · simpa [started] using h2
      · simpa [ended] using h3
      · simpa [lost] using h4
  have hcnt : ∀ o, (v.tasks.map (·.order)).count o =
      ((v.tasks.filter fun t => t.order.session != session).map (·.order)).count o +
      ((v.tasks.filter fun t => t.order.session == session).map (·.order)).count o := by
    intro o
    generalize v.tasks = l
    induction l with
    | nil => rfl
    | cons a l ih =>
      rw [List.filter_cons, List.filter_cons]
      by_cases ha : a.order.session = session <;> simp [ha, List.count_cons, ih] <;> omega
  obtain ⟨n1, n2, n3, n4⟩ := hnil (v.tasks.filter fun t => t.order.session == session)
  refine
    { nodup := h.nodup
      absent := h.absent
      serialKey := h.serialKey
      fresh := by simpa [n1] using h.fresh
      ids := by simpa [n1] using h.ids
      acc := ?_
      st := ?_
      idle := h.idle
      dacc := fun k d hd => by simpa [n1] using h.dacc k d hd
      dkey := h.dkey
      qkey := h.qkey
      tkey := fun u hu => h.tkey u (List.mem_filter.mp hu).1
      blk := fun u hu => h.blk u (List.mem_filter.mp hu).1
      ukey := h.ukey
      live := ?_
      cont := ?_
      wf := h.wf
      order := ?_ }
  · intro o
    have h1 := hcnt o
    have h2 := h.acc o
    simp only [waiting, active, accepted_append, ended_append, lost_append, n1, n3, n4,
      List.append_nil, List.count_append] at h1 h2 ⊢
    omega
  · intro o
    have h1 := hcnt o
    have h2 := h.st o
    simp only [active, started_append, ended_append, n2, n3,
      List.append_nil, List.count_append] at h1 h2 ⊢
    omega
  · intro hc'
    exact absurd hc hc'
  · intro _ k hk d hd
    rcases h.cont hc k hk d hd with hm | hm
    · obtain ⟨t, ht, rfl⟩ := List.mem_map.mp hm
      by_cases hs : t.order.session = session
      · right
        refine List.mem_append.mpr (.inr (List.mem_map.mpr ⟨t, List.mem_filter.mpr ⟨ht, ?_⟩, rfl⟩))
        simpa using hs
      · left
        refine List.mem_map.mpr ⟨t, List.mem_filter.mpr ⟨ht, ?_⟩, rfl⟩
        simpa using hs
    · right
      simp [hm]
  · intro k
    simp only [accepted_append, started_append, lost_append, n1, n2, n4, List.append_nil]
    exact h.order k

theorem step_inv {v : Svc} (h : Inv none v) (e : Ev) :
    ∃ v', step v e = some v' ∧ Inv none v' ∧ v'.delivery.parallel = v.delivery.parallel := by
  cases e with
  | arrive source session instr => exact serve_inv h source session instr
  | finish id =>
    simp only [step]
    split
    · exact ⟨_, rfl, h, rfl⟩
    · rename_i t hf
      exact release_inv h (List.mem_of_find?_eq_some hf) _ (.inl rfl)
  | cancelDone id =>
    simp only [step]
    split
    · exact ⟨_, rfl, h, rfl⟩
    · rename_i t hf
      refine release_inv h (List.mem_of_find?_eq_some hf) _ (.inr ?_)
      split
      · exact .inl rfl
      · exact .inr rfl
  | unblock =>
    simp only [step]
    split
    · exact ⟨_, rfl, h, rfl⟩
    · rename_i label rest hu
      exact unblock_inv h label rest hu
  | cancelNow =>
    simp only [step]
    split
    · exact ⟨_, rfl, h, rfl⟩
    · rename_i session rest hc
      have h' : Inv none { v with cancels := rest } := { h with }
      refine ⟨_, rfl, h'.status _ ?_ ?_, rfl⟩ <;> intro t <;> split <;> rfl
  | cleanup source session =>
    simp only [step]
    refine ⟨_, rfl, cleanTasks_inv (cleanup_delivery_inv h session) source session, ?_⟩
    unfold Svc.cleanTasks
    split <;> rfl
  | sever source =>
    exact ⟨_, rfl, { h with }, rfl⟩

theorem run_inv (es : List Ev) : ∀ {v : Svc}, Inv none v →
    ∃ v', run v es = some v' ∧ Inv none v' ∧ v'.delivery.parallel = v.delivery.parallel := by
  induction es with
  | nil => intro v h; exact ⟨v, rfl, h, rfl⟩
  | cons e es ih =>
    intro v h
    obtain ⟨v1, h1, hi, hp⟩ := step_inv h e
    obtain ⟨v2, h2, hi2, hp2⟩ := ih hi
    exact ⟨v2, by simp [run, h1, h2], hi2, hp2.trans hp⟩

end Verif.Delivery
