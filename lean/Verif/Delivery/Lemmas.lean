import Verif.Delivery.Spec

/-
Invariants of the delivery model. Everything the property theorems need is proved here.
-/
namespace Verif.Delivery

set_option linter.unusedSimpArgs false
set_option linter.unusedVariables false

/-! ### Logs -/

section logs
variable (l l' : List Rec)

@[simp] theorem accepted_append : accepted (l ++ l') = accepted l ++ accepted l' := by
  simp [accepted]
@[simp] theorem started_append : started (l ++ l') = started l ++ started l' := by
  simp [started]
@[simp] theorem ended_append : ended (l ++ l') = ended l ++ ended l' := by
  simp [ended]
@[simp] theorem lost_append : lost (l ++ l') = lost l ++ lost l' := by
  simp [lost]

variable (o : Order) (os : List Order)
@[simp] theorem accepted_accepted : accepted [.accepted o] = [o] := rfl
@[simp] theorem accepted_started : accepted [.started o] = [] := rfl
@[simp] theorem accepted_responded : accepted [.responded o] = [] := rfl
@[simp] theorem accepted_stopped : accepted [.stopped o] = [] := rfl
@[simp] theorem accepted_cleaned : accepted [.cleaned o] = [] := rfl
@[simp] theorem accepted_skipped : accepted [.skipped o] = [] := rfl
@[simp] theorem started_accepted : started [.accepted o] = [] := rfl
@[simp] theorem started_started : started [.started o] = [o] := rfl
@[simp] theorem started_responded : started [.responded o] = [] := rfl
@[simp] theorem started_stopped : started [.stopped o] = [] := rfl
@[simp] theorem started_cleaned : started [.cleaned o] = [] := rfl
@[simp] theorem started_skipped : started [.skipped o] = [] := rfl
@[simp] theorem ended_accepted : ended [.accepted o] = [] := rfl
@[simp] theorem ended_started : ended [.started o] = [] := rfl
@[simp] theorem ended_responded : ended [.responded o] = [o] := rfl
@[simp] theorem ended_stopped : ended [.stopped o] = [o] := rfl
@[simp] theorem ended_cleaned : ended [.cleaned o] = [o] := rfl
@[simp] theorem ended_skipped : ended [.skipped o] = [] := rfl
@[simp] theorem lost_accepted : lost [.accepted o] = [] := rfl
@[simp] theorem lost_started : lost [.started o] = [] := rfl
@[simp] theorem lost_responded : lost [.responded o] = [] := rfl
@[simp] theorem lost_stopped : lost [.stopped o] = [] := rfl
@[simp] theorem lost_cleaned : lost [.cleaned o] = [] := rfl
@[simp] theorem lost_skipped : lost [.skipped o] = [o] := rfl

@[simp] theorem accepted_discarded : accepted (os.map .discarded) = [] := by
  induction os <;> simp_all [accepted]
@[simp] theorem started_discarded : started (os.map .discarded) = [] := by
  induction os <;> simp_all [started]
@[simp] theorem ended_discarded : ended (os.map .discarded) = [] := by
  induction os <;> simp_all [ended]
@[simp] theorem lost_discarded : lost (os.map .discarded) = os := by
  induction os <;> simp_all [lost]
@[simp] theorem accepted_removed : accepted (os.map .removed) = [] := by
  induction os <;> simp_all [accepted]
@[simp] theorem started_removed : started (os.map .removed) = [] := by
  induction os <;> simp_all [started]
@[simp] theorem ended_removed : ended (os.map .removed) = [] := by
  induction os <;> simp_all [ended]
@[simp] theorem lost_removed : lost (os.map .removed) = os := by
  induction os <;> simp_all [lost]
end logs

theorem lost_count (l : List Rec) (o : Order) :
    (lost l).count o = (discarded l).count o + (removed l).count o + (skipped l).count o := by
  induction l with
  | nil => rfl
  | cons r l ih =>
    cases r <;> simp_all [lost, discarded, removed, skipped, List.count_cons] <;> omega

/-! ### The queues -/

@[simp] theorem set_lane (d : Delivery) (k k' : Option Nat) (s : Serial) :
    (d.set k s).lane k' = if k' = k then s else d.lane k' := rfl

@[simp] theorem set_parallel (d : Delivery) (k : Option Nat) (s : Serial) :
    (d.set k s).parallel = d.parallel := rfl

theorem mem_set_keys (d : Delivery) (k k' : Option Nat) (s : Serial) :
    k' ∈ (d.set k s).keys ↔ k' ∈ d.keys ∨ k' = k := by
  simp only [Delivery.set]
  split
  · rename_i h
    constructor
    · exact .inl
    · rintro (h' | rfl) <;> assumption
  · simp

theorem set_keys_nodup (d : Delivery) (k : Option Nat) (s : Serial) (h : d.keys.Nodup) :
    (d.set k s).keys.Nodup := by
  simp only [Delivery.set]
  split
  · exact h
  · rename_i hk
    rw [List.nodup_append]
    refine ⟨h, by simp, ?_⟩
    intro a ha b hb
    simp at hb
    subst hb
    intro hab
    exact hk (hab ▸ ha)

/-- The queue that a blocker with this label blocks. -/
def lkey (parallel : Bool) (label : Option Nat) : Option (Option Nat) :=
  if parallel then label.map some else some none

theorem lkey_label (par : Bool) (o : Order) :
    lkey par (o.instr.map Instr.label) = queueOf par o := by
  unfold lkey queueOf
  cases par <;> cases o.instr <;> simp

theorem popNext_eq {d : Delivery} {label k : Option Nat}
    (h : lkey d.parallel label = some k) (hk : k ∈ d.keys) :
    popNext d label = some (d.set k (popNextImpl (d.lane k)).1, (popNextImpl (d.lane k)).2) := by
  unfold popNext
  unfold lkey at h
  cases hp : d.parallel
  · simp only [hp, Bool.false_eq_true, if_false, Option.some.injEq] at h ⊢
    subst h
    rfl
  · cases label with
    | none => simp [hp] at h
    | some l =>
      simp only [hp, if_true, Option.map_some, Option.some.injEq] at h
      subst h
      simp [hk]

theorem insertNewOrder_eq (d : Delivery) (o : Order) :
    (queueOf d.parallel o = none ∧ insertNewOrder d o = some (d, .immediate none)) ∨
    ∃ k, queueOf d.parallel o = some k ∧
      insertNewOrder d o = (insertSerialOrder (d.lane k) o).map fun r => (d.set k r.1, r.2) := by
  unfold insertNewOrder queueOf
  cases hp : d.parallel
  · right
    exact ⟨none, by simp, by simp⟩
  · cases hi : o.instr with
    | none => left; simp [hi]
    | some i => right; exact ⟨some i.label, by simp [hi], by simp [hi]⟩

theorem insertSerialOrder_eq (s : Serial) (o : Order) (hs : s.delivering = none → s.queue = []) :
    (s.delivering = none ∧ s.queue = [] ∧ insertSerialOrder s o =
        some ({ delivering := some o, queue := [] }, .immediate (some (o.instr.map Instr.label)))) ∨
    ∃ d bad stop, s.delivering = some d ∧ insertSerialOrder s o =
        some ({ delivering := some d, queue := s.queue.filter (fun e => !bad e) ++ [o] },
          .queued (s.queue.filter bad) stop (o.instr.map Instr.label)) ∧
      (stop = none ∨ stop = some d ∧ Preempts o.instr) := by
  unfold insertSerialOrder
  cases hd : s.delivering with
  | none =>
    left
    have := hs hd
    simp [this]
  | some d =>
    right
    cases hi : o.instr with
    | none =>
      refine ⟨d, fun _ => false, none, rfl, ?_, .inl rfl⟩
      simp [hd, List.filter_eq_self.mpr (fun _ _ => rfl : ∀ a ∈ s.queue, true = true)]
    | some inc =>
      cases hp : inc.preempt
      · refine ⟨d, fun _ => false, none, rfl, ?_, .inl rfl⟩
        simp [hd, hp, List.filter_eq_self.mpr (fun _ _ => rfl : ∀ a ∈ s.queue, true = true)]
      · refine ⟨d, fun e => e.instr.any (shouldDiscard inc),
          if d.instr.any (shouldDiscard inc) then some d else none, rfl, ?_, ?_⟩
        · simp [hd, hp]
        · split
          · exact .inr ⟨rfl, inc, rfl, hp⟩
          · exact .inl rfl

theorem count_flatMap_update (o : Order) (q : Option Nat → List Order) (k : Option Nat)
    (q' : List Order) (ks : List (Option Nat)) (hn : ks.Nodup) :
    (ks.flatMap fun k' => if k' = k then q' else q k').count o +
        (if k ∈ ks then (q k).count o else 0) =
      (ks.flatMap q).count o + (if k ∈ ks then q'.count o else 0) := by
  induction ks with
  | nil => simp
  | cons a ks ih =>
    simp only [List.nodup_cons] at hn
    have := ih hn.2
    simp only [List.flatMap_cons, List.count_append, List.mem_cons]
    by_cases hak : a = k
    · subst hak
      have hk : a ∉ ks := hn.1
      simp only [hk, if_false, if_true, true_or] at this ⊢
      omega
    · have hka : ¬ k = a := fun h => hak h.symm
      simp only [hak, hka, if_false, false_or] at this ⊢
      omega

/-- Writing back one queue changes the waiting requests accordingly. -/
theorem count_waiting_set (d : Delivery) (k : Option Nat) (s : Serial) (o : Order)
    (hn : d.keys.Nodup) (ha : ∀ k, k ∉ d.keys → d.lane k = {}) :
    ((d.set k s).keys.flatMap fun k' => ((d.set k s).lane k').queue).count o +
        (d.lane k).queue.count o =
      (d.keys.flatMap fun k' => (d.lane k').queue).count o + s.queue.count o := by
  have heq : (fun k' => ((d.set k s).lane k').queue) =
      fun k' => if k' = k then s.queue else (d.lane k').queue := by
    funext k'
    simp only [set_lane]
    split <;> rfl
  rw [heq]
  have h := count_flatMap_update o (fun k' => (d.lane k').queue) k s.queue d.keys hn
  simp only [Delivery.set]
  by_cases hk : k ∈ d.keys
  · simp only [hk, if_true] at h ⊢
    exact h
  · simp only [hk, if_false] at h ⊢
    rw [List.flatMap_append, List.count_append]
    simp only [List.flatMap_cons, List.flatMap_nil, if_true, List.append_nil, ha k hk,
      List.count_nil] at h ⊢
    omega

/-! ### The order in which requests are started -/

/-- Of the accepted requests `A`, those of queue `k` that are not in `L` (lost) are those
in `S` (started) followed by those in `Q` (waiting). -/
def OrderOK (par : Bool) (k : Option Nat) (A L S Q : List Order) : Prop :=
  A.filter (fun o => decide (queueOf par o = some k) && decide (o ∉ L)) =
    S.filter (fun o => decide (queueOf par o = some k)) ++ Q

/-- Requests are lost. -/
theorem OrderOK.lose {par : Bool} {k : Option Nat} {A L S Q : List Order}
    (h : OrderOK par k A L S Q) (D : List Order) (hD : ∀ x ∈ D, x ∉ S) :
    OrderOK par k A (L ++ D) S (Q.filter (fun x => decide (x ∉ D))) := by
  unfold OrderOK at h ⊢
  have hstep : A.filter (fun x => decide (queueOf par x = some k) && decide (x ∉ L ++ D)) =
      (A.filter (fun x => decide (queueOf par x = some k) && decide (x ∉ L))).filter
        (fun x => decide (x ∉ D)) := by
    rw [List.filter_filter]
    apply List.filter_congr
    intro x _
    by_cases h1 : queueOf par x = some k <;> by_cases h2 : x ∈ L <;> by_cases h3 : x ∈ D <;>
      simp [h1, h2, h3]
  rw [hstep, h, List.filter_append]
  congr 1
  rw [List.filter_eq_self]
  intro x hx
  simp only [decide_eq_true_eq]
  intro hxD
  exact hD x hxD (List.mem_filter.mp hx).1

/-- A request of this queue is started. -/
theorem OrderOK.start {par : Bool} {k : Option Nat} {A L S Q : List Order} {o : Order}
    (h : OrderOK par k A L S (o :: Q)) (ho : queueOf par o = some k) :
    OrderOK par k A L (S ++ [o]) Q := by
  unfold OrderOK at h ⊢
  rw [h]
  simp [ho]

/-- A request of another queue is started. -/
theorem OrderOK.start_other {par : Bool} {k : Option Nat} {A L S Q : List Order} {o : Order}
    (h : OrderOK par k A L S Q) (ho : queueOf par o ≠ some k) :
    OrderOK par k A L (S ++ [o]) Q := by
  unfold OrderOK at h ⊢
  rw [h]
  simp [ho]

/-- A request of this queue is accepted. -/
theorem OrderOK.accept {par : Bool} {k : Option Nat} {A L S Q : List Order} {o : Order}
    (h : OrderOK par k A L S Q) (ho : queueOf par o = some k) (hL : o ∉ L) :
    OrderOK par k (A ++ [o]) L S (Q ++ [o]) := by
  unfold OrderOK at h ⊢
  rw [List.filter_append, h]
  simp [ho, hL]

/-- A request of another queue is accepted. -/
theorem OrderOK.accept_other {par : Bool} {k : Option Nat} {A L S Q : List Order} {o : Order}
    (h : OrderOK par k A L S Q) (ho : queueOf par o ≠ some k) :
    OrderOK par k (A ++ [o]) L S Q := by
  unfold OrderOK at h ⊢
  rw [List.filter_append, h]
  simp [ho]

/-! ### The invariant -/

theorem dkey_set {d : Delivery} {k : Option Nat} {s : Serial}
    (h : ∀ k x, (d.lane k).delivering = some x → queueOf d.parallel x = some k)
    (hs : ∀ x, s.delivering = some x → queueOf d.parallel x = some k) (k' : Option Nat) (x : Order)
    (hx : ((d.set k s).lane k').delivering = some x) :
    queueOf (d.set k s).parallel x = some k' := by
  simp only [set_lane] at hx
  split at hx
  · rename_i he
    rw [he]
    exact hs x hx
  · exact h k' x hx

/-- The invariant of every run. `ex` is a queue whose active request has just ended and
whose next one has not been served yet. -/
structure Inv (ex : Option (Option Nat)) (v : Svc) : Prop where
  nodup : v.delivery.keys.Nodup
  absent : ∀ k, k ∉ v.delivery.keys → v.delivery.lane k = {}
  serialKey : v.delivery.parallel = false → none ∈ v.delivery.keys
  fresh : ∀ o ∈ accepted v.log, o.id < v.next
  ids : ((accepted v.log).map (·.id)).Nodup
  acc : ∀ o, (waiting v).count o + (active v).count o + (ended v.log).count o +
    (lost v.log).count o = (accepted v.log).count o
  st : ∀ o, (started v.log).count o = (active v).count o + (ended v.log).count o
  idle : ∀ k, (v.delivery.lane k).delivering = none → (v.delivery.lane k).queue = []
  dacc : ∀ k d, (v.delivery.lane k).delivering = some d → d ∈ accepted v.log
  dkey : ∀ k d, (v.delivery.lane k).delivering = some d → queueOf v.delivery.parallel d = some k
  qkey : ∀ k o, o ∈ (v.delivery.lane k).queue → queueOf v.delivery.parallel o = some k
  tkey : ∀ t ∈ v.tasks, ∀ k, queueOf v.delivery.parallel t.order = some k → k ∈ v.delivery.keys
  blk : ∀ t ∈ v.tasks, t.blocker =
    (queueOf v.delivery.parallel t.order).map fun _ => t.order.instr.map Instr.label
  ukey : ∀ u ∈ v.unblocks, ∃ k ∈ v.delivery.keys, lkey v.delivery.parallel u = some k
  live : v.kind ≠ .continuous → ∀ k, ex ≠ some k → (v.delivery.lane k).delivering ≠ none →
    (∃ t ∈ v.tasks, queueOf v.delivery.parallel t.order = some k) ∨
    (∃ u ∈ v.unblocks, lkey v.delivery.parallel u = some k)
  cont : v.kind = .continuous → ∀ k, ex ≠ some k → ∀ d, (v.delivery.lane k).delivering = some d →
    d ∈ active v ∨ Rec.cleaned d ∈ v.log
  wf : v.kind = .workflow → v.unblocks = []
  order : ∀ k, OrderOK v.delivery.parallel k (accepted v.log) (lost v.log) (started v.log)
    (v.delivery.lane k).queue

theorem Inv.weaken {v : Svc} (h : Inv none v) (ex : Option (Option Nat)) : Inv ex v :=
  { h with
    live := fun hc k _ hd => h.live hc k (by simp) hd
    cont := fun hc k _ d hd => h.cont hc k (by simp) d hd }

theorem Inv.accepted_nodup {ex : Option (Option Nat)} {v : Svc} (h : Inv ex v) :
    (accepted v.log).Nodup := by
  have := h.ids
  rw [List.nodup_iff_pairwise_ne, List.pairwise_map] at this
  rw [List.nodup_iff_pairwise_ne]
  exact this.imp fun hne hab => hne (by rw [hab])

theorem fresh_inv (kind : Kind) (par : Bool) : Inv none (Svc.fresh kind par) := by
  refine ⟨?_, ?_, ?_, ?_, ?_, ?_, ?_, ?_, ?_, ?_, ?_, ?_, ?_, ?_, ?_, ?_, ?_, ?_⟩ <;>
    simp [Svc.fresh, Delivery.fresh, accepted, ended, lost, started, waiting, active]
  · cases par <;> simp
  · intro o; cases par <;> simp
  · simp [OrderOK]

/-- Where the order of an accepted request is. -/
theorem Inv.count_le {ex : Option (Option Nat)} {v : Svc} (h : Inv ex v) (o : Order) :
    (waiting v).count o + (active v).count o + (ended v.log).count o + (lost v.log).count o ≤ 1 := by
  rw [h.acc o]
  exact List.nodup_iff_count.mp h.accepted_nodup o

theorem Inv.not_accepted {ex : Option (Option Nat)} {v : Svc} (h : Inv ex v) {o : Order}
    (ho : v.next ≤ o.id) : o ∉ accepted v.log := by
  intro hm
  have := h.fresh o hm
  omega

theorem Inv.mem_accepted_of_active {ex : Option (Option Nat)} {v : Svc} (h : Inv ex v) {t : Task}
    (ht : t ∈ v.tasks) : t.order ∈ accepted v.log := by
  have h1 := h.acc t.order
  have h2 : 0 < (active v).count t.order :=
    List.count_pos_iff.mpr (List.mem_map.mpr ⟨t, ht, rfl⟩)
  exact List.count_pos_iff.mp (by omega)

theorem Inv.mem_accepted_of_queue {ex : Option (Option Nat)} {v : Svc} (h : Inv ex v) {o : Order}
    {k : Option Nat} (ho : o ∈ (v.delivery.lane k).queue) : o ∈ accepted v.log := by
  have hk : k ∈ v.delivery.keys := by
    refine Classical.byContradiction fun hk => ?_
    rw [h.absent k hk] at ho
    simp at ho
  have h1 := h.acc o
  have h2 : 0 < (waiting v).count o :=
    List.count_pos_iff.mpr (List.mem_flatMap.mpr ⟨k, hk, ho⟩)
  exact List.count_pos_iff.mp (by omega)

theorem Inv.queue_mem_waiting {ex : Option (Option Nat)} {v : Svc} (h : Inv ex v) {o : Order}
    {k : Option Nat} (ho : o ∈ (v.delivery.lane k).queue) : o ∈ waiting v := by
  refine List.mem_flatMap.mpr ⟨k, ?_, ho⟩
  refine Classical.byContradiction fun hk => ?_
  rw [h.absent k hk] at ho
  simp at ho

/-- A waiting request has not been started and is not lost. -/
theorem Inv.queue_not_started {ex : Option (Option Nat)} {v : Svc} (h : Inv ex v) {o : Order}
    {k : Option Nat} (ho : o ∈ (v.delivery.lane k).queue) : o ∉ started v.log := by
  intro hs
  have h1 := h.count_le o
  have h2 : 0 < (waiting v).count o := List.count_pos_iff.mpr (h.queue_mem_waiting ho)
  have h3 : 0 < (started v.log).count o := List.count_pos_iff.mpr hs
  have h4 := h.st o
  omega

theorem Inv.queue_not_lost {ex : Option (Option Nat)} {v : Svc} (h : Inv ex v) {o : Order}
    {k : Option Nat} (ho : o ∈ (v.delivery.lane k).queue) : o ∉ lost v.log := by
  intro hs
  have h1 := h.count_le o
  have h2 : 0 < (waiting v).count o := List.count_pos_iff.mpr (h.queue_mem_waiting ho)
  have h3 : 0 < (lost v.log).count o := List.count_pos_iff.mpr hs
  omega

theorem eq_of_id {l : List Order} (h : (l.map (·.id)).Nodup) {a b : Order} (ha : a ∈ l)
    (hb : b ∈ l) (hab : a.id = b.id) : a = b := by
  induction l with
  | nil => cases ha
  | cons c l ih =>
    simp only [List.map_cons, List.nodup_cons, List.mem_map] at h
    rcases List.mem_cons.mp ha with rfl | ha'
    · rcases List.mem_cons.mp hb with rfl | hb'
      · rfl
      · exact absurd ⟨b, hb', hab.symm⟩ h.1
    · rcases List.mem_cons.mp hb with rfl | hb'
      · exact absurd ⟨a, ha', hab⟩ h.1
      · exact ih h.2 ha' hb'

theorem Inv.task_of_id {ex : Option (Option Nat)} {v : Svc} (h : Inv ex v) {t u : Task}
    (ht : t ∈ v.tasks) (hu : u ∈ v.tasks) (hid : t.order.id = u.order.id) : t.order = u.order :=
  eq_of_id h.ids (h.mem_accepted_of_active ht) (h.mem_accepted_of_active hu) hid

/-- The tasks that remain when one ends. -/
theorem Inv.count_filter {ex : Option (Option Nat)} {v : Svc} (h : Inv ex v) {t : Task}
    (ht : t ∈ v.tasks) (o : Order) :
    ((v.tasks.filter (fun u => u.order.id != t.order.id)).map (·.order)).count o +
      [t.order].count o = (active v).count o := by
  by_cases ho : o = t.order
  · subst ho
    have h1 := h.count_le t.order
    have h2 : 0 < (active v).count t.order :=
      List.count_pos_iff.mpr (List.mem_map.mpr ⟨t, ht, rfl⟩)
    have h3 : ((v.tasks.filter (fun u => u.order.id != t.order.id)).map (·.order)).count t.order
        = 0 := by
      rw [List.count_eq_zero]
      intro hm
      obtain ⟨u, hu, hut⟩ := List.mem_map.mp hm
      have := (List.mem_filter.mp hu).2
      rw [hut] at this
      simp at this
    rw [h3]
    simp
    omega
  · have h4 : [t.order].count o = 0 := by
      rw [List.count_eq_zero]
      simpa using ho
    rw [h4]
    have : ∀ l : List Task, (∀ u ∈ l, u ∈ v.tasks) →
        ((l.filter (fun u => u.order.id != t.order.id)).map (·.order)).count o =
          (l.map (·.order)).count o := by
      intro l hl
      induction l with
      | nil => rfl
      | cons a l ih =>
        have ih := ih fun u hu => hl u (List.mem_cons_of_mem _ hu)
        rw [List.filter_cons]
        split
        · simp [List.count_cons, ih]
        · rename_i hc
          have hid : a.order.id = t.order.id := by simpa using hc
          have : a.order = t.order := h.task_of_id (hl a (List.mem_cons_self ..)) ht hid
          rw [ih, List.map_cons, List.count_cons, this]
          simpa using fun e : t.order = o => ho e.symm
    exact this v.tasks fun u hu => hu

/-! ### Taking the next request out of a queue -/

/-- Skipping a request. -/
theorem serveNext_skip {v : Svc} {k : Option Nat} {o : Order} {q : List Order}
    (h : Inv (some k) v) (hk : k ∈ v.delivery.keys) (hq : (v.delivery.lane k).queue = o :: q)
    (ho : o ∈ (v.delivery.lane k).queue) :
    Inv (some k) { v with
      delivery := v.delivery.set k { delivering := some o, queue := q }
      log := v.log ++ [.skipped o] } := by
  have hkey := h.qkey k o ho
  have hcnt : ∀ x, ((v.delivery.set k { delivering := some o, queue := q }).keys.flatMap
      fun k' => ((v.delivery.set k { delivering := some o, queue := q }).lane k').queue).count x
      + [o].count x = (waiting v).count x := by
    intro x
    have h1 := count_waiting_set v.delivery k { delivering := some o, queue := q } x h.nodup
      h.absent
    simp only [hq, waiting, List.count_cons, List.count_nil] at h1 ⊢
    omega
  have hnodup : (o :: q).Nodup := by
    rw [← hq]
    have : ∀ x, (v.delivery.lane k).queue.count x ≤ 1 := by
      intro x
      have h1 := h.count_le x
      have h2 := count_waiting_set v.delivery k {} x h.nodup h.absent
      simp only [waiting, List.count_nil] at h1 h2
      omega
    exact List.nodup_iff_count.mpr this
  have hoq : o ∉ q := (List.nodup_cons.mp hnodup).1
  refine
    { nodup := set_keys_nodup _ _ _ h.nodup
      absent := ?_
      serialKey := fun hp => (mem_set_keys _ _ _ _).mpr (.inl (h.serialKey hp))
      fresh := by simpa using h.fresh
      ids := by simpa using h.ids
      acc := ?_
      st := by simpa [active] using h.st
      idle := ?_
      dacc := ?_
      dkey := dkey_set h.dkey (fun x hx => by cases hx; exact hkey)
      qkey := ?_
      tkey := fun t ht k' hk' => (mem_set_keys _ _ _ _).mpr (.inl (h.tkey t ht k' hk'))
      blk := h.blk
      ukey := ?_
      live := ?_
      cont := ?_
      wf := h.wf
      order := ?_ }
  · intro k' hk'
    have : k' ∉ v.delivery.keys ∧ k' ≠ k := by
      rw [mem_set_keys] at hk'; exact not_or.mp hk'
    simp only [set_lane, this.2, if_false]
    exact h.absent k' this.1
  · intro x
    have h1 := hcnt x
    have h2 := h.acc x
    simp only [waiting, active, accepted_append, ended_append, lost_append,
      accepted_skipped, ended_skipped, lost_skipped, List.append_nil,
      List.count_append] at h1 h2 ⊢
    omega
  · intro k'
    simp only [set_lane]
    split
    · intro hd; simp at hd
    · exact h.idle k'
  · intro k' d hd
    simp only [set_lane] at hd
    have : d ∈ accepted v.log := by
      split at hd
      · cases hd; exact h.mem_accepted_of_queue ho
      · exact h.dacc k' d hd
    simpa using this
  · intro k' x
    simp only [set_lane]
    split
    · rename_i he
      subst he
      intro hx
      exact h.qkey _ x (by rw [hq]; exact List.mem_cons_of_mem _ hx)
    · exact h.qkey k' x
  · intro u hu
    obtain ⟨k', hk', hu'⟩ := h.ukey u hu
    exact ⟨k', (mem_set_keys _ _ _ _).mpr (.inl hk'), hu'⟩
  · intro hc k' hne
    have hne' : k' ≠ k := fun he => hne (by rw [he])
    simp only [set_lane, hne', if_false]
    exact h.live hc k' hne
  · intro hc k' hne
    have hne' : k' ≠ k := fun he => hne (by rw [he])
    simp only [set_lane, hne', if_false]
    intro d hd
    exact (h.cont hc k' hne d hd).imp_right fun hm => List.mem_append.mpr (.inl hm)
  · intro k'
    have hold := (h.order k').lose [o]
      (fun x hx => by rw [List.mem_singleton.mp hx]; exact h.queue_not_started ho)
    simp only [set_lane, accepted_append, started_append, lost_append, accepted_skipped,
      started_skipped, lost_skipped, List.append_nil, set_parallel]
    refine Eq.mp (congrArg _ ?_) hold
    split
    · rename_i he
      subst he
      rw [hq, List.filter_cons]
      simp only [List.mem_singleton, not_true_eq_false, decide_false, Bool.false_eq_true,
        if_false]
      rw [List.filter_eq_self]
      intro x hx
      simp only [decide_eq_true_eq]
      rintro rfl
      exact hoq hx
    · rename_i hne
      rw [List.filter_eq_self]
      intro x hx
      simp only [List.mem_singleton, decide_eq_true_eq]
      rintro rfl
      have := h.qkey k' x hx
      rw [hkey] at this
      exact hne (Option.some.inj this).symm

/-- How the next request is served. -/
theorem serveNext_inv (label k : Option Nat) : ∀ (fuel : Nat) (v : Svc), Inv (some k) v →
    lkey v.delivery.parallel label = some k → k ∈ v.delivery.keys →
    (v.delivery.lane k).queue.length < fuel →
    ∃ v', v.serveNext label fuel = some v' ∧ Inv none v' ∧
      v'.delivery.parallel = v.delivery.parallel := by
  intro fuel
  induction fuel with
  | zero => intro v _ _ _ h; omega
  | succ fuel ih =>
    intro v h hl hk hf
    simp only [Svc.serveNext, popNext_eq hl hk]
    cases hq : (v.delivery.lane k).queue with
    | nil =>
      simp only [popNextImpl, hq]
      refine ⟨_, rfl, ?_, rfl⟩
      refine
        { nodup := set_keys_nodup _ _ _ h.nodup
          absent := ?_
          serialKey := fun hp => (mem_set_keys _ _ _ _).mpr (.inl (h.serialKey hp))
          fresh := h.fresh
          ids := h.ids
          acc := ?_
          st := h.st
          idle := ?_
          dacc := ?_
          dkey := dkey_set h.dkey (fun x hx => by cases hx)
          qkey := ?_
          tkey := fun t ht k' hk' => (mem_set_keys _ _ _ _).mpr (.inl (h.tkey t ht k' hk'))
          blk := h.blk
          ukey := ?_
          live := ?_
          cont := ?_
          wf := h.wf
          order := ?_ }
      · intro k' hk'
        have : k' ∉ v.delivery.keys ∧ k' ≠ k := by
          rw [mem_set_keys] at hk'; exact not_or.mp hk'
        simp only [set_lane, this.2, if_false]
        exact h.absent k' this.1
      · intro o
        have h1 := count_waiting_set v.delivery k { delivering := none, queue := [] } o h.nodup h.absent
        have h2 := h.acc o
        simp only [hq, waiting, active] at h1 h2 ⊢
        simp only [List.count_nil] at h1
        omega
      · intro k'
        simp only [set_lane]
        split
        · intro _; rfl
        · exact h.idle k'
      · intro k' d hd
        simp only [set_lane] at hd
        split at hd
        · cases hd
        · exact h.dacc k' d hd
      · intro k' o
        simp only [set_lane]
        split
        · intro ho; simp at ho
        · exact h.qkey k' o
      · intro u hu
        obtain ⟨k', hk', hu'⟩ := h.ukey u hu
        exact ⟨k', (mem_set_keys _ _ _ _).mpr (.inl hk'), hu'⟩
      · intro hc k' _
        simp only [set_lane]
        split
        · intro hd; exact absurd rfl hd
        · rename_i hne
          exact h.live hc k' (fun he => hne (Option.some.inj he).symm)
      · intro hc k' _
        simp only [set_lane]
        split
        · intro d hd; cases hd
        · rename_i hne
          exact h.cont hc k' (fun he => hne (Option.some.inj he).symm)
      · intro k'
        have := h.order k'
        simp only [set_lane]
        split
        · rename_i he
          subst he
          rw [hq] at this
          exact this
        · exact this
    | cons o q =>
      simp only [popNextImpl, hq]
      have ho : o ∈ (v.delivery.lane k).queue := by rw [hq]; exact List.mem_cons_self ..
      have hkey := h.qkey k o ho
      have hcnt : ∀ x, ((v.delivery.set k { delivering := some o, queue := q }).keys.flatMap
          fun k' => ((v.delivery.set k { delivering := some o, queue := q }).lane k').queue).count x
          + [o].count x = (waiting v).count x := by
        intro x
        have h1 := count_waiting_set v.delivery k { delivering := some o, queue := q } x h.nodup
          h.absent
        simp only [hq, waiting, List.count_cons, List.count_nil] at h1 ⊢
        omega
      have hnodup : (o :: q).Nodup := by
        rw [← hq]
        have : ∀ x, (v.delivery.lane k).queue.count x ≤ 1 := by
          intro x
          have h1 := h.count_le x
          have h2 := count_waiting_set v.delivery k {} x h.nodup h.absent
          simp only [waiting, List.count_nil] at h1 h2
          omega
        exact List.nodup_iff_count.mpr this
      have hoq : o ∉ q := (List.nodup_cons.mp hnodup).1
      by_cases hsev : o.source ∈ v.severed
      · simp only [hsev, if_true]
        have hinv := serveNext_skip h hk hq ho
        refine ih _ hinv hl ((mem_set_keys _ _ _ _).mpr (.inl hk)) ?_
        simp only [set_lane, if_true]
        rw [hq] at hf
        simp only [List.length_cons] at hf
        omega
      · simp only [hsev, if_false]
        refine ⟨_, rfl, ?_, rfl⟩
        refine
          { nodup := set_keys_nodup _ _ _ h.nodup
            absent := ?_
            serialKey := fun hp => (mem_set_keys _ _ _ _).mpr (.inl (h.serialKey hp))
            fresh := by simpa [Svc.start] using h.fresh
            ids := by simpa [Svc.start] using h.ids
            acc := ?_
            st := ?_
            idle := ?_
            dacc := ?_
            dkey := dkey_set h.dkey (fun x hx => by cases hx; exact hkey)
            qkey := ?_
            tkey := ?_
            blk := ?_
            ukey := ?_
            live := ?_
            cont := ?_
            wf := h.wf
            order := ?_ }
        · intro k' hk'
          have : k' ∉ v.delivery.keys ∧ k' ≠ k := by
            simp only [Svc.start] at hk'
            rw [mem_set_keys] at hk'; exact not_or.mp hk'
          simp only [Svc.start, set_lane, this.2, if_false]
          exact h.absent k' this.1
        · intro x
          have h1 := hcnt x
          have h2 := h.acc x
          simp only [Svc.start, waiting, active, accepted_append, ended_append, lost_append,
            accepted_started, ended_started, lost_started, List.append_nil,
            List.count_append, List.map_append, List.map_cons, List.map_nil] at h1 h2 ⊢
          omega
        · intro x
          have h2 := h.st x
          simp only [Svc.start, active, started_append, ended_append, started_started,
            ended_started, List.append_nil, List.count_append, List.map_append, List.map_cons,
            List.map_nil] at h2 ⊢
          omega
        · intro k'
          simp only [Svc.start, set_lane]
          split
          · intro hd; simp at hd
          · exact h.idle k'
        · intro k' d hd
          simp only [Svc.start, set_lane] at hd
          have : d ∈ accepted v.log := by
            split at hd
            · cases hd; exact h.mem_accepted_of_queue ho
            · exact h.dacc k' d hd
          simpa [Svc.start] using this
        · intro k' x
          simp only [Svc.start, set_lane]
          split
          · rename_i he
            subst he
            intro hx
            exact h.qkey _ x (by rw [hq]; exact List.mem_cons_of_mem _ hx)
          · exact h.qkey k' x
        · intro t ht k' hk'
          refine (mem_set_keys _ _ _ _).mpr ?_
          simp only [Svc.start, List.mem_append, List.mem_singleton] at ht
          rcases ht with ht | rfl
          · exact .inl (h.tkey t ht k' hk')
          · simp only [Svc.start, set_parallel, hkey, Option.some.injEq] at hk'
            exact .inr hk'.symm
        · intro t ht
          simp only [Svc.start, List.mem_append, List.mem_singleton] at ht
          rcases ht with ht | rfl
          · exact h.blk t ht
          · simp only [Svc.start, set_parallel, hkey, Option.map_some]
        · intro u hu
          obtain ⟨k', hk', hu'⟩ := h.ukey u hu
          exact ⟨k', (mem_set_keys _ _ _ _).mpr (.inl hk'), hu'⟩
        · intro hc k' _ hd
          by_cases he : k' = k
          · subst he
            left
            exact ⟨_, List.mem_append.mpr (.inr (List.mem_singleton.mpr rfl)), hkey⟩
          · simp only [Svc.start, set_lane, he, if_false] at hd
            rcases h.live hc k' (fun hx => he (Option.some.inj hx).symm) hd with ⟨t, ht, htk⟩ | hu
            · exact .inl ⟨t, List.mem_append.mpr (.inl ht), htk⟩
            · exact .inr hu
        · intro hc k' _ d hd
          by_cases he : k' = k
          · subst he
            simp only [Svc.start, set_lane, if_true, Option.some.injEq] at hd
            subst hd
            left
            simp [active, Svc.start]
          · simp only [Svc.start, set_lane, he, if_false] at hd
            rcases h.cont hc k' (fun hx => he (Option.some.inj hx).symm) d hd with hm | hm
            · left
              simp only [active, Svc.start, List.map_append, List.mem_append]
              exact .inl hm
            · right
              simp only [Svc.start, List.mem_append]
              exact .inl hm
        · intro k'
          have hold := h.order k'
          simp only [Svc.start, set_lane, accepted_append, started_append, lost_append,
            accepted_started, started_started, lost_started, List.append_nil, set_parallel]
          split
          · rename_i he
            subst he
            rw [hq] at hold
            exact hold.start hkey
          · rename_i hne
            refine hold.start_other ?_
            rw [hkey]
            exact fun h => hne (Option.some.inj h).symm

end Verif.Delivery
